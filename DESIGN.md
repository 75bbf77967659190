# Formal model of scip-go in Lean 4 — design

## Layout

* `lean/Verif/Model/*.lean` — the model: total, computable functions, each citing file and lines of `/repo`.
* `lean/Verif/Spec/*.lean` — small independent specifications used in theorem statements.
* `lean/Verif/Lemmas/*.lean` — helper lemmas.
* `lean/Verif/Props/*.lean` — the property theorems, one file per area, each with non-vacuity `example`s.

Conventions: a Go string is `Str = List Char`, one `Char` per byte; all scanners in the code only test ASCII bytes, except the test for
exported names and the trimming of white space, which work on runes and are modelled by decoding UTF-8 (`Model/Unicode.lean` with the table of
the Unicode category Lu, `Str.blanks`); `isExported_iff` and `trimSpace_iff` prove both equal to their definition by code points; Go maps are association lists or
functions, and *iteration over a map* is modelled as iteration over an arbitrary permutation of its entries;
panics and errors are explicit values; external libraries (go/types, go/packages, vcs, os, protobuf payloads, sha256)
are either parameters or explicit small models listed in the trusted base.

## Plan per property

| property | modelled | proof |
|---|---|---|
| C01 C02 | scip symbol formatter (dependency, re-modelled), FromDescriptors; a decoder in the spec | round trip by induction over descriptors and characters |
| C03 | Composer state machine (memo table) | invariant over all request histories |
| C04 | Composer.describe* and the three collecting visitors on a common syntax + type-object model | equality of the two descriptor paths; counterexamples for interface methods, derived struct types, parenthesised var types; Spec/EntityDecl.lean gives, for every entity, the condition under which they agree, C04_exact proves that it is necessary and sufficient |
| C05 C06 | Composer.describe*, KindForObject | case analysis + C01 injectivity |
| C07 C08 | scipRange, RangeFromName with explicit int32 wrap | arithmetic |
| C09-C17 | fileVisitor over a model of ast.Walk on a syntax tree type; then the documents of a whole run against the source files alone (Spec/WholeRun.lean) | invariants by mutual induction over trees; the symbol tables characterised by the declarations (C21) eliminate them from the statements |
| C18 C19 | lookup.Package | induction over registration sequences; permutation reasoning |
| C20 | GetSymbolOfObject with its global caches | cache invariant over histories; C20_answer: where an answer comes from |
| C21-C25 C70 | typeVisitor, varVisitor, funcVisitor, Scope | mutual induction over trees; counterexamples for leaks. What varVisitor leaves open on type syntax it does not handle is part of the specification (`leftOpen`, Spec/Declarations.lean), so no theorem about a whole run assumes that such types do not occur; of var and const declarations only the shape of parsed trees is assumed (`Parsed`) |
| C26-C29 | fingerprint Encode / Parse / unify on a type-term model, character level | structural induction; matching = existence of a substitution (one side without type parameters, or both linear); counterexamples for the crash, the missed and the wrong match; tricky = a type parameter or an interface literal with methods inside |
| C30-C36 | methodMask, classify, findImplementations, AddImplementationRelationships on a heap of symbol infos | membership characterisation of the fold, order independence from it |
| C37-C42 C48 | normalizePackage, semver/pseudo-version parsers (dependency, re-modelled) | case analysis + parser lemmas |
| C43-C46 | addImportsToPkgs on arbitrary finite graphs | well-founded recursion, worklist invariant |
| C47 | filepath.Clean/Rel/IsLocal on path components | list prefix reasoning |
| C49-C51 C55-C58 C69 | Index, indexVisitPackages, GetPackages, ListMissing, findPackageDocs | induction over message lists, sortedness, permutations |
| C52 C53 | writer: wire framing; lock/write/unlock step machine | round trip of varint framing; invariant over schedules |
| C54 | IndexCmd.Run over a file-system state | case analysis over all failure points |
| C59-C61 | humanElapsed, progress state machine, getLogLevel | arithmetic, invariants |
| C62-C65 | parseRemote, InferModuleVersion, ModuleName, searchForGoMod | string lemmas; counterexamples where the code deviates |
| C66-C68 | IsDocDeprecated, quotedTagsToBacktick, documentation assembly; for whole runs the attribution of comments to identifiers by the three visitors | string induction; for whole runs every identifier of a package is paired with the node its documentation must come from (Lemmas/Comments), and the visitors are proved to register no other pair |
| C71 | KindForObject on type parameters | case analysis (the code never reports the kind) |
| C72 | normalizePackage, replacements, local go.mod | case analysis over the module record |
| C73 | filepath.Rel of every document path | component lemmas of filepath, injectivity |
| C79, C80 | typeStringForObject and what it calls, SignatureText, types.ObjectString; whole runs: the descriptions in the documents | a reader for signatures, proved to invert the printer on all well-formed types |
| C76-C78 | PackagesCmd.Run, MissingCmd.Run, main, defaults of the flags | composition with C49-C56, reading the printed text back |
| C74 C75 | the composed run: collection, file visitor, implementations, emission | composition of the invariants of C11-C25 over all packages, under the typing hypotheses of Spec/Project.lean |

| C81-C83 | Program.lean: query, the delivered packages, LoadPackages and Index composed | the loader's invariants turn a typed delivered program (Spec/Program.lean) into a typed project (LoadOk.typed); then composition with C51, C74, C37-C48 |
| C84 | the whole run (Index, the extractor and the passes) | NamedTypes (Spec/Types.lean) says what the type checker guarantees about types; described_iff turns the index's descriptions into source-level types (via C01, C21), shouldRelate_iff the relation into source terms; then C31-C35 and the documents of C49 |
| C85 | the whole program (Program.indexing: loader, normalisation, Index), run twice with different orders | same_kept: with AlikeVariants the two loads keep packages that indexing cannot tell apart under every path; so the loaded maps are permutations of each other (same_loaded), index_perm turns a run on the one into a run on the other with other map orders, and C69 applies. NamedProgram (Spec/Program.lean) states what the type checker guarantees on the delivered program and LoadOk.named derives the hypothesis of C69 and C84 from it |
| C86, C84 (program) | the whole program again | LoadOk.maps turns the invariants of the loader into ProgramMaps (Spec/Program.lean), which says what the two maps contain in terms of the delivered packages only; LoadOk.typed and LoadOk.named derive the hypotheses of C09-C84, so every theorem about `index` is a theorem about the program; C84_program is the instance for relationships, with every document assigned to its file (document_at) |
| C87 | nothing new; Spec/Content.lean puts the parts of the specification together to one predicate IndexOf on lists of messages | C87_document and C87_index collect C07-C17, C68, C84 per event and per description; C87_determined shows that IndexOf determines the index (for unambiguous source), so that nothing is left out of the specification; C87_program transfers it to the whole program through C86 |
| C88, C50 (cut off) | Program.command: flags, makeOptions, loading, indexing, writing, exit status in one function | C50_cut_off compares a run with the run in which no write fails; C88_command composes C41, C52, C54, C82, C87; C88_ends composes C45 |
| C89, C76 (all output) | Stdout.lean: everything that goes to standard output, as a sequence of single writes: progress, listings and (for `-`) messages; progress of the files is shuffled with the documents; Model/ConcurrentStdout: the same as the events of the machine of C92 | C89_every_schedule: whatever the schedule of the goroutines, standard output is as Stdout.lean describes (invariant over the machine of C92); induction over shuffles and chunks: the bytes of the index keep their order; with --quiet nothing else is written (C60); without it the first byte is no tag of an index, so C89 is false there; an example does not even decode |
| C90 | ConcurrentComposer.lean: `Compose` split at the mutex and every access to the table, any number of goroutines | an invariant relates every reachable state to a sequential run of the finished calls; mutual exclusion, no deadlock, a measure that every step decreases; C03 gives independence of the schedule |
| C91 | all texts of the model, as sequences of bytes | `Text` is closed under every operation the code applies (cutting at ASCII, trimming, joining, doubling, `filepath`); by induction over syntax and types all registered texts are `Text`, hence all strings of all messages; `Text` implies what the protobuf library checks |
| C92 | Model/ConcurrentIndex: `Index` as a machine with a step for every action of the caller, of the three working goroutines and of the display's goroutines, each labelled with who does it and what it accesses. | Invariant (who can be alive when), then a backward simulation: what remains to be done, computed without goroutines, is the same before and after every step; hence every ended schedule gives `Index.index`. Race freedom from the invariant; C92_accesses_noted proves the labels complete (frame property both for writing and for reading). Ending by a lexicographic measure. |
| C93 | nothing new; Spec/SkipImplementations.lean says when one list of messages is another without implementations | C93_index compares two complete runs document by document (C49, C84: a description is determined up to order by what collecting wrote); C93_program transfers it to the whole program by C82, same_loaded and index_perm |
| C94 | nothing new; Spec/Renaming.lean says when one delivery of a program is another one with new numbers for positions, identifiers, objects and files (the identities of types, which the implementation pass compares, keep their numbers) | simulation, function by function: every visitor commutes with the renumbering (Lemmas/Renaming, RenamingVisit), so do the composer's memo, the implementation pass (RenamingImpl) and the whole run (RenamingIndex); for each order of iteration of the one run there is one of the other (C94_same_run), C85 does the rest |
| C95 | nothing new; Spec/Modularity.lean says when one loaded project extends another and when two lists of occurrences agree except for new references | both documents are what C87 says; then by cases over what is met in the file: declarations and locals depend on the package only, what references name differs only for what is newly indexed; C95_nothing_new and C95_only_marks are the two special cases |
| C96 | nothing new; Spec/Locality.lean says when a file is not edited between two loaded projects: the checker says the same about its declarations, and what it refers to has the same symbols and deprecation | both documents are what C87 says; the traversal of the file, its locals and its entities depend on the identifiers of this file only, references by what they name; C96_comment_differs evaluates two runs which differ because a comment elsewhere says `Deprecated:` |
| C82, C85 (broken go.mod) | nothing new; Props/BrokenModule.lean says when a package needs a broken go.mod file | collect_panic carries the loader's invariants to the point of a panic; with the variants of a package in the same module the panic happens in every order or in none |
| C97 | Model/Log.lean: the slog calls of visitor_file.go and the filter of SetOutputOptions; Spec/Log.lean lists the mentions of a file and says what is reported about each | the log of a file is the concatenation of the reports of its mentions, by induction on the tree beside the invariant of the file visitor (C13); combined with C13: occurrence, or no symbol by design, or log; the levels are those of C61; LogSample evaluates a file in which every kind of record appears |
| C98 | nothing new; Spec/OutputFlags.lean says which invocations and which outputs are compared | the options of the two invocations differ in the recorded arguments only; a successful run is the run without failing writes (C50), in which the arguments appear in the first message only (index_arguments); C69/C85 compare the rest, C52 and C89 say what has been written |
| C99 | nothing new; Spec/Places.lean lists the places of a syntax tree | by induction over the declaration relations of C21-C25 each recorded position is a place of the declaring node, and distinct places make node, identifier and path unique; this discharges the uniqueness hypotheses of C15, C19 and C87 (Unambiguous) from TypedProject and the parser's guarantees |
| C100 | nothing new; Spec/Naming.lean states Go's rules about unique names and which entities have a name of their own | the path of an entity determines the kind of declaration and the names in it (induction over the member relation of C25), Go's rules then determine the identifier, C01 carries this to symbols and C87 (content of the index) to descriptions and definitions; counterexamples for what is excluded in Props/NamingSample.lean |
| C101 | Model/Main.lean: parseArgs, sharedFlags, defaultModuleRoot, surroundings, main; filepath.Abs; Spec/Checkout.lean says what git and go answer in a checked-out module and how packages are identified there | the defaults are what C63/C64/C65 say of the tools' answers, C41 takes them over into the options, C83 gives the identities of all symbols in terms of the options, C52/C88 say what is in the file |
| C102 | Model/Main.lean: main for the three commands | each step of main crashes exactly in the named cases (C61, C63, C64, C77), loading and indexing never do (C82, C74, C33); termination from C45 and the search for go.mod |
| C103 | nothing new; Spec/Status.lean says when a command can start and with which options | makeOptions succeeds iff Starts (by cases), loading succeeds iff the go command delivers and nothing is broken (C82), indexing then succeeds iff writing does (C82, C91, C50); the lists printed are the keys of the loaded maps, which are the paths of roots and of reachable packages (C43, C56) |
| C104 | Model/Warnings.lean: all slog.Warn calls of a run; the conflicts are collected by the visitors themselves (Model/Visitors.lean, `VState.warned`); Spec/Warnings.lean says what there is to warn of | the registrations of a package (C21) with the conflicts among them: a conflict is a pair of registrations at one position, and there is none where places are distinct (C99); the extractor sees every package once (induction beside C33's invariant); the warnings of the file visitor are those of C97's log at level Warn |
| C105 | Model/Stderr.lean: all records of the levels Info, Warn and Error of a run of `main` (options, loader, index, `ListMissing`, the deferred function for the memory profile) and the handler that filters them; Spec/Stderr.lean says what there is to tell | case analysis along `main` from C103's `Starts`; loading is shown silent by induction along the loader; the warnings of indexing are C104's, with the delivered program (C86) as the project |
| C106 | Model/Debug.lean: the records of level Debug of the loader (`normalizePackage`), of `indexVisitPackages` and of the extractor of implementations; Spec/Debug.lean says from what the go command delivered what there is to tell of a package, Spec/DebugRun.lean which types and methods are left out | `C106_told`, `C106_silent_identity` by cases along `normalizePackage`; `C106_load`, `C106_failed_load` by induction along the traversal of imports (every record comes from a package as delivered, and every kept package has been normalised from that state); `C106_visits`, `C106_left_out` by induction along the extractor with the fact that it only asks the table (`Asked`) |
| C107 | Model/FingerprintText.lean: writeSexpr, Tree.String | `C107_text_of_fingerprint` by induction on the type (the text of its tree is what `print` gives); `C107_text_parses` by induction on the tree with the token lemmas of C28; `C107_text_injective` follows |
| C108 | Model/VisitNotes.lean: the records of level Debug of the collecting visitors, part of the records of a run (Model/Debug.lean); Spec/VisitNotes.lean says what there is to tell of | `C108_told` by mutual induction along the visitors (types) and on the size of the node (variables); `C108_silent_exact` from C22_var_names_exact and the fact that something is left open below a node iff a spec is told of there; `C108_silent_package`, `C108_embedded` from these and C21; the place in a run: `C106_visits` |
| C109 | Model/ConcurrentLookup.lean: the functions of `lookup.Global` split at every access to its maps and to `skippedTypes`, with and without the mutex as in the code, any number of goroutines | invariants as for C90 (a sequential run of the finished calls; what a lookup has found so far stays true while nobody fills the tables); `C109_race_causes` from the accesses noted in each step and mutual exclusion of the writers, the races themselves (`C109_race_read_during_add`, `C109_race_predeclared`) as reachable states for arbitrary tables; `C109_answers` from C20; a measure that every step decreases |
| C110 | no new model; Spec/KeptDeclaration.lean: two packages that share one declaration up to places and addresses (the renaming of C94, of this one declaration); what one declaration declares by itself | C110_same_symbol by induction over the declaring relations of C21–C25 (`DeclaredBy.ren`; the scopes of specs are followed through the defect of C22); C110_index from C100 for both runs; C110_no_places says where names of places come from |
| C111 | no new model; Spec/CrossIndex.lean: the package is a dependency in the other run, the identifier is used for an entity of it | `C111_reference` from the exact form of C04 (`entityDecl_path`, Spec/EntityDecl.lean), what C13 says about references and injectivity (C01); `C111_whole_runs` adds C100 for the first run; `C111_leads_right` from C01 and the form of the paths of named entities; `C111_packages` from `C58_whole_index` (the symbol of a package in the whole index: C87, C01, and nothing declared has the path of the package alone) and C13; `C111_external`, `C111_implemented` (types as external symbols and in relationships) from C87 and C100, `C111_symbol` for whatever else means an entity |

## Trusted base

### What is trusted

* **Lean 4.33.0's kernel** (and, for reading the statements, its elaborator).  No `axiom` is declared, no proof is left open, and no
  proof is accepted by compiled code.  Concrete evaluations inside `example`s and counterexamples use `decide`/`decide +kernel`
  (kernel reduction) or `rfl`.
* **Axioms**: only Lean's own `propext`, `Classical.choice`, `Quot.sound`.  The table at the end lists them per theorem; it is generated
  by `tools/axioms.py` from `#print axioms`.
* **The specifications in `Spec/`**: the statements are written against them.  They do not call the model's functions except where the
  statement is about a model value.
* **The reading of the Go source**: every definition in `Model/` cites file and lines.  There is no mechanical extraction; the seeded bugs
  in `seeded/LOG.jsonl` check that the theorems react to changes of the model.

### What is modelled

| model file | code | fidelity |
|---|---|---|
| Symbol | internal/symbols/symbols.go, formatter and grammar of the scip bindings | character level; the formatter is re-modelled from the published grammar |
| Composer | internal/symbols/composer.go, kind.go | all describe* functions, memo table, kinds |
| Types | go/types objects as seen by composer and visitors | records of observed facts; pointer identity is an id |
| Ast | go/ast | nodes that some visitor inspects; everything else is `other` with its children in walking order |
| TypeString | types.TypeString (dependency), anon_type_key.go | re-modelled from the published source, character level; sha256 and strconv.Quote are parameters |
| Signature | document.go:207-329 typeStringForObject, formatTypeDeclaration, formatAliasDeclaration, formatTypeParamList, expandTypeExpr, formatGoDecl, relativeQualifier; lookup/local.go SignatureText; types.ObjectString (dependency) | ObjectString re-modelled from the published source; gofmt, strconv.Quote and Unquote are parameters; the log output of formatAliasDeclaration is left out |
| Visitors | visitor_type.go, visitor_func.go, visitor_var.go, scope.go, visitors.go | function by function, `ast.Walk` composed with `Visit` |
| FileVisitor | visitor_file.go, scipRange, RangeFromName | function by function, int32 wrap-around explicit |
| Document | document.go, documentation assembly, deprecation, tags | function by function; signature texts in Signature |
| Lookup | lookup.go, local.go, newtypes.go | function by function; mutexes not modelled |
| GoMap, Sort, Str | Go maps, `sort`/`slices.Sort`, package `strings` | finite maps; iteration order is an arbitrary permutation |
| Fingerprint | fingerprint.go | Encode, Parse, unify, at character level, crash = explicit value |
| Identical | types.Identical | term level |
| Implementations | implementations.go, extractor.go | heap of descriptions; map iteration orders are parameters |
| Index | scip.go, package_ident.go | Index, indexVisitPackages, GetPackages, ListMissing, findPackageDocs; writer failures are a parameter |
| Loader | loader.go | normalizePackage, addImportsToPkgs, LoadPackages, IsStandardLib, …; packages.Load, files, vcs are parameters |
| Program | loader.go:32-46 getConfig, loader.go:81-128 LoadPackages and scip.go:101 together; main.go: the command `index` from the flags to the output file (Program.command) | the result of loading becomes the input of indexing; the load mode of packages.Load is constant and left out |
| Semver, Regexp | golang.org/x/mod/semver, module (pseudo versions) | re-modelled from the published source |
| Filepath | path/filepath on Unix | component lists |
| Wire | proto.Marshal of scip.Index, the framing of the output | byte level, from the published wire format and scip.proto |
| Cmd | cmd/scip-go/main.go: getLogLevel, makeOptions, IndexCmd.Run | one failure point per fallible call; file system as a state |
| Commands | main.go: PackagesCmd.Run, MissingCmd.Run, main, default* functions; TopLevel | texts printed at character level; JSON decoding is a parameter |
| Main | main.go:26-71, 245-308: parseArgs, default values, the three commands from arguments to exit status; filepath.Abs | what kong reads from arguments and environment is a parameter (given flags and selected command, or an error); the tools answer per directory |
| ConcurrentWriter | main.go:156-186 under concurrency | step machine, partial writes |
| ConcurrentComposer | composer.go:28-70 under concurrency | step machine |
| ConcurrentLookup | lookup.go:75-214 under concurrency | step machine; the table of a package is a value; a panic is an answer |
| ConcurrentIndex | scip.go:84-252, implementations.go:125-174, output.go:31-67 with all goroutines | step machine; visiting one package, checking one type, visiting one file, one call of the writer are one step each |
| Output, Progress | internal/output | humanElapsed exactly; WithProgressParallel as step machine with arbitrary scheduling |
| ConcurrentStdout | what the machine of ConcurrentIndex writes to standard output | `os.Stdout` is unbuffered; errors of printing are not modelled |
| Log | visitor_file.go: slog calls; output.go: SetOutputOptions | of the texts only kind, position and package; until the first panic, if there is one |
| Warnings | all slog.Warn calls except document.go:265-275 | kind, position, package and symbols; the order in which they are made |
| Stderr | main.go: slog calls, makeOptions, Run; loader.go, scip.go: what they log; output.go: SetOutputOptions | records of level Debug left out; texts by kind and value; a panic in a goroutine is not told apart from one that runs the deferred function |
| VisitNotes | visitors.go:153, visitor_var.go:92: the records of level Debug of the collecting visitors | positions only; that of the field for that of its type |
| Debug | loader.go:134-266, scip.go:204-246, extractor.go:26-150: the records of level Debug | texts by kind and value; what `packages.Load` logs left out |
| FingerprintText | fingerprint.go:46-50, 306-339 | the builtin `print` of a dotted list writes to standard error and not into the text; the default case (panic) is not representable |
| Stdout | everything printed by fmt.Printf/Println (output.go, main.go) together with the messages for `-` | one element per write; what is printed before a panic is any beginning; time.Duration.String is a parameter |
| Git | internal/git, internal/modules, paths.go, defaults in main.go | git, url.Parse, modfile, vcs are parameters |

### Parameters (arbitrary in the theorems)

`packages.Load`, results of the type checker (`Defs`, `Uses`, `Implicits`, `Selections`, method sets), the file system, `git` and `go` subprocesses,
`url.Parse`, `modfile.Parse`, `vcs.RepoRootForImportPath`, sha256, strconv.Quote, map iteration orders, the scheduler, results of
system calls.  Where a theorem needs facts about them (e.g. that `Defs` maps an identifier to an object at the identifier's position) these are
hypotheses collected in named structures (`TypedSource`, `TypedProject`, `TypedProgram`, `GoProgram`, `TypedFile`, `WellFormedObj`, `WellFormedPackage`, `LexOk`,
`ValidMapOrders`, …), each of which is inhabited by a concrete sample in the `*Sample.lean` files or beside the theorem.

### Not modelled

* Flag parsing (kong) beyond Model/Main.lean, help and version output; the contents of profiles; `file.Close`; of the log records: the
  two warnings about aliases of document.go:265-275, what `packages.Load` logs, and the format of lines.
* Real time; memory exhaustion; stack depth.
* Generated file detection, `cgo`: whatever `packages.Load` returns is what is indexed.

### Deviations found

The following were found while proving; each is stated as a theorem (negation or counterexample) where the model covers it.

1. `searchForGoMod`: the loop condition is inverted, so inside a repository the answer is always "." (C65).
2. `modules.ModuleName` swallows the resolution error; a go.mod without module directive panics (C64).
3. `normalizePackage`: the go.mod parse error path dereferences nil (recovered into an error by `LoadPackages`).
4. `varVisitor` leaks a scope entry on type syntax it does not handle (C22, exactly: C22_var_names_exact); embedded fields in such structs are misplaced (C24).
5. Interface methods, fields of derived struct types and methods of alias receivers are referenced from other modules under another symbol than
   the one they are defined under (C04).
6. Fingerprints: function-local types and tricky interfaces collide (C27), a type named like a keyword crashes the matcher, and two parametric sides in which a type parameter occurs twice can crash, miss a match or be matched wrongly (C29).
7. Implementations through embedding across packages are lost (C32).  The kind of type parameters is never reported (C71).
8. `IsDocDeprecated` accepts any line, not only paragraph starts (C66); unterminated quotes in tags are dropped (C67).
9. An empty `GOPACKAGESDRIVER` counts as set (C41); `NewComposer` gets the module root instead of the module path.
10. `addImportsToPkgs` looks up the path from before normalisation, so the largest variant does not win for std (C44); the project map can hold a
    stale variant (C46).
11. `InferModuleVersion` slices `commit[:12]` without checking the length (C63).
12. The order of symbol descriptions and external symbols is not deterministic; only permutations are equal (C69).
13. Import references to vendored standard library packages overrun the import text (C08).
14. `index -o -` without `--quiet` mixes progress text into the SCIP output (C89_progress_in_output, loud_undecodable).  `ListMissing` always answers nothing (C55).
15. Negative `--verbose` panics (C61); strings that are not UTF-8 make the run fail (Wire).
16. Keys of anonymous types: identical types that are written differently (`any` / `interface{}`, parameter names) get different keys, against the
    comment of anon_type_key.go (C25_written_differently).
17. Defaults of the flags are computed eagerly: a short commit id or JSON null from `go list` panics even if the flags are given (C77); outside a
    repository the go.mod search gives up at once (C65_outside_repository).
18. The signature of a generic defined type drops its type parameters (C79_generic_definition); the constraints of generic aliases are written with
    import paths, everything else with package names (C79_alias_constraint); tags containing back-ticks make field signatures ambiguous
    (C79_backtick).
19. `varVisitor.curDecl` is not restored after a `var` or `const` declaration inside of a function literal, so the specs after it in the same
    group get the comments of the inner declaration, mostly none (C68_lost).
20. document.go:333-360 unquotes the struct tags in the type of a field: a tag written with escapes (`"\xff"`, or any binary tag) puts bytes that are not
    UTF-8 into the signature, `proto.Marshal` refuses the document and the whole index fails although all sources are UTF-8 (C91_raw_tag;
    evaluated for a run of the whole indexer in Props/TextSample.lean).  Likewise an argument of the command line or a comment that is not UTF-8
    (C91_needs_utf8).
21. Several `init` functions of a package share one symbol, as do fields of identical anonymous struct types in one body; parameters of function literals in
    the value of a package-level variable are described as package-level entities `v:a.`, all of the same name under one symbol (C100_shared).
22. `--module-root` does not move the defaults: with a module root in another repository the symbols carry the version (and the Go version) of the repository of the
    working directory (C101_versions_from_elsewhere).
23. The fallback of loader.go:175-184 for packages without module, with its warning, is never reached: such packages count as standard library
    (C104_loading_silent).

24. `lookup.Global` has a mutex, but only `Add` and `SetPkgSymbol` take it: a lookup while a package is being added is a data race, and so are two lookups of
    predeclared types, since the process-wide map `skippedTypes` has no mutex (C109_race_read_during_add, C109_race_predeclared).  The indexer does neither (C92_race_free).
25. The symbols of fields of an anonymous type in a spec with several names (`var a, b struct{ X int }`) contain the line and column of the spec
    (`inline-3-5:X.`): they change whenever anything above is edited, and mean something else if another spec comes to stand there (C110_place_in_symbol).

### Axioms per theorem

* **none**: C01_leading_space_ambiguous, C01_empty_field_ambiguous, C52_reader_view_metadata, C66_any_line_not_paragraph
* **propext**: C07_quotes_only, C08_vendored_path_overruns, C21_type_paths, C23_receiver_path_unique, C25_anonymous_field_path, C29_keyword_name_crash, C41_options_taken_over, C46_stale_variant, C47_symmetric, C47_unknown_directory, C59_bound_tight, C60_silent_after_return, C63_errors, C64_failure_swallowed, C64_no_directive, C68_field_func_documentation, C71_type_parameter_kind_never_reported, C76_missing_documents, C76_quiet_output, C90_table_only_inside, C104_module_warning, C104_loading_silent, C106_silent_identity, C109_race_read_during_add, C109_race_predeclared, C109_no_deadlock
* **propext, Classical.choice, Quot.sound**: C03_same_answer, C03_history_independent, C04_reference_equals_definition_partial, C04_exact, C05_composed, C06_composed, C07_range_well_formed, C07_quotes_left_out, C09_locals_numbered, C09_whole_run, C10_local_reference, C10_local_reference_converse, C10_whole_run, C10_whole_run_converse, C11_whole_run, C11_locals_described, C12_definitions, C12_whole_run, C13_references, C13_whole_run, C14_no_crash, C15_whole_run, C15_definition_and_reference_agree, C16_whole_run, C16_whole_run_converse, C16_deprecated, C16_definition, C17_enclosing_range, C17_whole_run, C18_table_after_registrations, C18_set_get, C19_partition, C20_history_independent, C20_classification, C20_panics_iff, C21_package_collected, C21_type_declarations, C22_var_names_exact, C22_var_names_partial, C23_functions_and_methods, C24_embedded_field_position_partial, C24_whole_package_partial, C24_var_struct_exact, C25_key_iff, C25_identical_types_partial, C25_written_differently, C26_identical_types_equal_fingerprints, C27_equal_fingerprints_identical_types, C29_no_infinite_match, C29_no_infinite_match_instance, C30_prefilters_lose_nothing, C31_whole_run, C31_added_relationships_are_real, C31_type_relationships_are_real, C31_method_relationships_are_real, C32_whole_run_partial, C32_every_implementation_partial, C32_embedding_across_packages_lost, C32_exact_types, C32_exact_methods, C33_order_independent, C33_never_crashes, C34_sorted_duplicate_free, C35_whole_run, C35_external_symbols, C35_written_once, C36_counter_reaches_total, C37_every_package_has_identity, C38_normalising_is_idempotent_partial, C38_not_idempotent, C39_pseudo_version_becomes_revision, C39_revision_unique, C40_build_metadata_dropped, C40_other_versions_kept, C41_driver_packages_belong_to_module, C42_standard_library, C43_closed_under_imports, C43_roots_represented, C43_only_reachable, C44_largest_variant_wins_partial, C44_all_variants_met, C44_std_last_variant_wins, C45_loading_terminates, C46_project_packages_are_among_all, C46_same_object_partial, C47_nested_iff, C48_unversioned_packages, C48_replaced_unversioned, C49_message_order, C49_success_is_complete, C51_one_document_per_file, C51_order_deterministic, C52_successful_run_decodes, C52_file_decodes, C52_cut_between_messages, C52_cut_inside_message, C53_no_interleaving, C53_mutual_exclusion, C53_no_deadlock, C53_all_written, C54_incomplete_output, C54_failed_run_leaves_nothing, C54_all_or_nothing, C55_nothing_missing, C56_listing, C57_package_docs, C58_clause_definition, C58_described_once, C58_one_description, C58_definitions, C58_whole_index, C59_human_elapsed, C60_no_deadlock, C60_can_return, C60_with_progress, C60_text, C62_infer, C62_errors, C63_module_version, C65_closest_partial, C67_requote, C67_no_quotes_unchanged, C67_unterminated_quote_dropped, C68_whole_run_partial, C68_value_spec_documentation, C69_same_documents, C69_same_index, C69_same_output, C70_symbols_of_own_package, C72_module_path, C73_leads_to_file, C73_injective, C73_documents, C74_never_crashes, C75_definitions_described, C76_packages_listing, C76_missing_text, C76_packages_output, C78_causes, C78_status_tells_completeness, C79_determines_partial, C79_never_empty, C79_recorded, C79_type_name, C79_package_name, C79_type_name_determined, C79_layout, C79_generic_definition, C79_alias_constraint, C79_backtick, C79_whole_run_partial, C80_determines, C80_whole_run, C81_identity_unique, C81_identity, C82_succeeds_iff, C82_every_file_indexed, C82_never_crashes, C82_run_ends, C82_causes, C83_every_symbol_identified, C83_symbols_of_run, C84_program, C84_exact_relationships, C84_types, C84_external_symbols, C85_same_outcome, C85_same_output, C85_same_index, C86_indexed_as_delivered, C87_document, C87_index, C87_determined, C87_program, C88_command, C88_ends, C89_every_schedule, C89_at_any_time, C89_index_part, C89_standard_output_partial, C89_progress_in_output, C89_order, C89_same_text, C90_linearizable, C90_mutual_exclusion, C90_no_deadlock, C90_steps_bounded, C90_schedule_independent, C91_utf8_partial, C91_marshal, C91_signature_partial, C91_program, C91_command, C91_needs_utf8, C91_raw_tag, C92_can_end, C92_no_infinite_schedule, C93_index, C93_program, C94_index, C94_same_run, C94_same_index, C95_document, C95_nothing_new, C95_only_marks, C96_document, C97_reports, C97_no_silent_loss, C97_shown, C98_index, C98_same_index, C98_succeeds, C99_one_entity, C99_apart, C99_own_symbol, C99_not_displaced, C99_described, C99_reference, C99_determined, C100_distinct, C100_one_description, C100_one_definition, C100_not_external, C100_whole_run, C100_shared, C101_options, C101_symbols, C102_panics_iff, C102_ends, C103_listing_succeeds_iff, C103_packages_printed, C103_missing_printed, C103_index_success_means, C103_index_succeeds_iff, C104_conflict_cause, C104_conflict_reported, C104_no_conflicts, C104_index_warnings, C104_silent, C105_error_line, C105_bad_arguments, C105_quiet, C105_not_started, C105_listing, C105_index, C106_told, C106_load, C106_failed_load, C106_visits, C106_left_out, C108_told, C108_silent_exact, C108_silent_package, C108_embedded, C109_steps_bounded, C109_answers, C110_index, C111_reference, C111_leads_right, C111_whole_runs, C111_symbol, C111_external, C111_implemented, C111_packages
* **propext, Quot.sound**: C01_symbol_roundtrip, C01_symbol_injective, C01_canonical_text, C02_global_not_local, C04_interface_method_differs, C04_derived_struct_wrong_owner, C04_alias_receiver_differs, C05_distinct_entities_distinct_symbols, C06_kind_matches_last_descriptor, C06_unspecified, C06_kind_exact, C07_range_from_name, C07_conversion, C08_import_and_package_clause, C13_one_identifier, C16_uncollected_not_deprecated, C19_listed_iff, C20_collected_entity, C20_answer, C22_paren_type_leaks_scope, C24_embedded_in_var_struct_misplaced, C25_key_shape, C25_sharing, C27_function_local_types_collide, C27_interfaces_collide, C27_tricky_exactly_vague, C28_parse_infallible, C29_match_exact_partial, C29_types_match_exact_partial, C29_ground, C29_two_patterns_crash, C29_two_patterns_missed, C29_two_patterns_wrong, C29_linear, C29_types_linear, C41_driver_configured, C50_write_failure, C50_cut_off, C52_translation_faithful, C52_reader_view, C52_reader_view_external, C57_relevance, C60_progress, C60_count_complete, C60_only_ticker_repeats, C60_supply_start, C61_log_level, C61_negative_crashes, C62_same_name, C62_ssh, C64_module_name_partial, C65_outside_repository, C65_inside_repository, C65_stat_error, C65_wrong_inside, C66_deprecated_iff, C68_lost, C68_no_empty_no_duplicate, C68_type_spec_documentation, C73_below_root, C76_failure_prints_nothing, C77_defaults_crash_iff, C77_defaults, C78_exit_status, C79_no_tabs, C80_import, C80_never_empty, C80_recorded, C82_go_command_fails, C91_anonymous, C92_every_schedule, C92_at_any_time, C92_race_free, C92_accesses_noted, C92_nothing_left, C95_interface_method_differs, C96_comment_differs, C100_apart, C101_versions_from_elsewhere, C107_text_of_fingerprint, C107_text_parses, C107_text_injective, C108_told_before_panic, C109_updates, C109_lookups, C109_race_causes, C109_race_free, C109_schedule_independent, C110_same_symbol, C110_by_declarations, C110_no_places, C110_named, C110_place_in_symbol
