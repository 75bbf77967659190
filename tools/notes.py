NOTES['C29']=("partial","proved exactly when one side has no type parameters (C29_match_exact_partial), and when both have them if no type parameter occurs twice in a side (C29_linear); otherwise the code can crash, miss a match or report a wrong one (C29_two_patterns_crash, _missed, _wrong)")
NOTES['C32']=("partial","types whose package-private interface method is promoted from an embedded type of another package are lost (proved counterexample); C32_exact_types and C32_exact_methods say exactly what is emitted")
NOTES['C71']=("partial","false of the code: the theorem proves that the kind is never reported")
NOTES['C37']=("partial","proved, except that the pseudo package builtin has an empty version if no Go version could be determined (proved to be the only exception)")
NOTES['C38']=("partial","proved for non-empty module paths, no module named std behind a replacement, no doubled std/ prefix and a plain project version; C38_not_idempotent proves it false when the project version is a pseudo-version")
NOTES['C39']=("proved","module version meaning the version the module (or its replacement, or its local go.mod) comes with; versions delivered empty are the subject of C48")
NOTES['C44']=("partial","proved for import paths without std/ prefix; C44_std_last_variant_wins proves it false while indexing the standard library")
NOTES['C46']=("partial","same keys, non-nil values and builtin proved for all loads; same object proved if the largest variant is among the matched packages; C46_stale_variant proves it false otherwise")
NOTES['C60']=("proved","no deadlock, return always possible, only ticker steps can repeat; scheduling fairness itself is outside the model; a worker that leaves early (write error) still ends in n/n")
NOTES['C61']=("proved","for counters from 0 on; C61_negative_crashes proves that a negative counter makes the program panic")
NOTES['C62']=("proved","url.Parse is a parameter with the documented behaviour on plain addresses as hypothesis; an instance is given")
NOTES['C63']=("proved","commit ids of at least 12 characters; C63_errors proves that a shorter answer of git makes the program panic")
NOTES['C64']=("partial","C64_failure_swallowed and C64_no_directive prove that a failed resolution is not reported and that a go.mod without module directive makes the program panic")
NOTES['C65']=("partial","false of the code inside a repository (C65_inside_repository, C65_wrong_inside); proved where the search runs at all")
NOTES['C25']=("partial","identical types share symbols only if they are written alike: aliases, parameter names and embedded interfaces change the key (C25_written_differently, with the pair struct{F any} / struct{F interface{}}); sha256 and strconv.Quote are parameters, a hash collision between the two texts is excluded by hypothesis")
NOTES['C79']=("partial","types.ObjectString is re-modelled, gofmt, strconv.Quote and strconv.Unquote are parameters; C79_determines_partial covers everything written on one line; for struct and interface definitions C79_layout reduces the text to the layout of gofmt; false for the type parameters of defined types (C79_generic_definition) and for struct tags containing back-ticks (C79_backtick); type parameters named like a declared type of the package are excluded")
NOTES['C80']=("proved","types.ObjectString is re-modelled; type parameters named like a declared type are excluded; local constants are shown without their value")
NOTES['C68']=("partial","false of the code for the specs of a var or const group after one whose value contains a var or const declaration in a function literal (C68_lost); proved for everything else, for whole runs against the comments of the source files (C68_whole_run_partial)")
NOTES['C89']=("partial","false of the code without --quiet (C89_progress_in_output; in the example the output cannot be decoded); proved with --quiet, and for the bytes of the index in general (C89_index_part)")
NOTES['C91']=("partial","false of the code for a field whose type is a struct literal with a tag like \"\\xff\": the tag is unquoted, its signature is not UTF-8 and the whole index fails (C91_raw_tag, evaluated for a whole run in TextSample); proved for all programs whose names, comments, paths, versions and signatures are UTF-8 (C91_utf8_partial, C91_program, C91_command), and for the signatures of all objects if the tags in field types are UTF-8 (C91_signature_partial; gofmt is assumed to keep UTF-8, strconv.Quote to produce it)")
NOTES['C95']=("proved","the exceptions named in the property are real: C95_interface_method_differs evaluates two runs in which the reference to a method of an interface has another symbol and that to a function gets a deprecation mark; the objects that the package uses may be others in the two runs (dependencies come from export data), which Spec/Modularity.lean spells out")
NOTES['C97']=("proved","of the texts of the records only kind, level, position and package are modelled; the occurrence of an identifier with uses is C13, which C97_no_silent_loss combines with the log")
NOTES['C96']=("proved","edits are compared in one numbering of positions and syntax nodes (C94: the numbering does not matter); the exception for deprecation comments is evaluated in C96_comment_differs; relationships are compared under the hypothesis that the implemented interfaces are the same")
NOTES['C99']=("proved","the hypotheses (Spec/Places.lean) are syntactic: distinct places of identifiers and embedded fields, and specs of var/const declarations are value specs; the files must have no syntax errors (go/parser puts placeholders for missing identifiers at positions of other tokens)")
NOTES['C100']=("proved","what the statement excludes does share symbols (C100_shared): several init functions, fields of identical anonymous types in one body, and everything inside of variable declarations (parameters of function literals are described as package-level entities under the name of the variable)")
NOTES['C101']=("proved","kong's reading of arguments and environment variables is a parameter; C101_versions_from_elsewhere is the last sentence: with --module-root in another repository, version and remote are still those of the working directory")
NOTES['C102']=("proved","the loader recovers its own panics (C82); a broken go.mod of a dependency is an error, not a panic; memory exhaustion and stack depth are outside of the model")
NOTES['C103']=("proved","C103_index_success_means holds without hypotheses about disk and texts; the converse (C103_index_succeeds_iff) needs that writing never fails and that all texts are UTF-8 (C91)")
NOTES['C105']=("proved","records of level Debug are left out, so the statement is exact unless -V is given twice; of the texts of the log records the kind and the values are kept; C105_error_line, C105_bad_arguments, C105_quiet and C105_not_started need no hypotheses about the packages")
NOTES['C106']=("proved","of the texts of the records the kind and the values are kept; what packages.Load itself logs (loader.go:37) is not covered; for the records of the collecting visitors see C108")
NOTES['C108']=("proved","of the texts of the records the kind and the position are kept; a syntax error in place of an embedded element is not told apart from a union")
NOTES['C110']=("proved","the exception is part of the statement: C110_place_in_symbol shows that it is needed, C110_no_places that it is the only one; what counts as the same anonymous type is the fingerprint key, which is a parameter of the model")
NOTES['C111']=("proved","the conditions are those of C04_exact and part of the statement (`ok` in C111_reference); that the two runs see the same declaration is the hypothesis EntityDecl, which relates the type checker's object of the second run to the syntax of the first")
