import Verif.Model.Str
/-!
# SCIP symbols

`internal/symbols/symbols.go` builds symbol strings by calling `scip.VerboseSymbolFormatter.FormatSymbol`
of the dependency `github.com/scip-code/scip/bindings/go/scip` v0.7.1 (not in /repo).  The formatter is
re-modelled here from its documented behaviour (the SCIP symbol grammar), and cross-checked against the
expected strings in internal/symbols/composer_test.go and internal/testdata/snapshots/output.
-/
namespace Verif

/-- `scip.Descriptor_Suffix`; the values used in /repo (scope.go:20, composer.go:92-204,
visitor_type.go:83,108, visitor_func.go:28-36, visitor_var.go:65).  The suffixes local, macro,
parameter and type-parameter of the SCIP protocol are never used by scip-go and are left out. -/
inductive Suffix where
  | nspace | typ | term | method | metadesc
  deriving DecidableEq, Repr

/-- `scip.Descriptor`: a name and a suffix.  The `Disambiguator` field is left out because no code in
/repo ever sets it (it is always empty). -/
structure Descriptor where
  name : Str
  suffix : Suffix
  deriving DecidableEq, Repr

/-- Characters of a SCIP `<simple-identifier>` (dependency: scip `isSimpleIdentifier`). -/
def isSimpleChar (c : Char) : Bool :=
  c = '_' || c = '+' || c = '-' || c = '$' ||
  ('a' ≤ c && c ≤ 'z') || ('A' ≤ c && c ≤ 'Z') || ('0' ≤ c && c ≤ '9')

/-- Doubling of one character (dependency: `strings.ReplaceAll(s, c, c+c)`). -/
def doubleChar (x : Char) : Str → Str
  | [] => []
  | c :: r => if c = x then x :: x :: doubleChar x r else c :: doubleChar x r

/-- Dependency: scip `writeSuffixedDescriptor` — simple identifiers verbatim, others in back-ticks with
back-ticks doubled. -/
def writeIdent (s : Str) : Str :=
  if s.all isSimpleChar then s else '`' :: (doubleChar '`' s ++ ['`'])

/-- The characters after the name (dependency: scip `FormatDescriptors`). -/
def Suffix.chars : Suffix → Str
  | .nspace => ['/']
  | .typ => ['#']
  | .term => ['.']
  | .metadesc => [':']
  | .method => ['(', ')', '.']

/-- Dependency: scip `FormatDescriptors`, one descriptor. -/
def writeDescriptor (d : Descriptor) : Str := writeIdent d.name ++ d.suffix.chars

/-- Dependency: scip `FormatDescriptors`. -/
def writeDescriptors : List Descriptor → Str
  | [] => []
  | d :: ds => writeDescriptor d ++ writeDescriptors ds

/-- Dependency: scip `writeEscapedPackage` — the empty string is written as `.`, spaces are doubled. -/
def writePackageField (s : Str) : Str := if s = [] then ['.'] else doubleChar ' ' s

/-- `scip.Package` as filled in by symbols.go:18-22 and composer.go:72-86 (the manager is always
`gomod`). -/
structure ScipPackage where
  name : Str
  version : Str
  deriving DecidableEq, Repr

/-- internal/symbols/symbols.go:16-24 and composer.go:64-68: `VerboseSymbolFormatter.FormatSymbol` with
scheme `scip-go` and manager `gomod`. -/
def formatSymbol (p : ScipPackage) (ds : List Descriptor) : Str :=
  writePackageField go!"scip-go" ++ ' ' ::
  (writePackageField go!"gomod" ++ ' ' ::
  (writePackageField p.name ++ ' ' ::
  (writePackageField p.version ++ ' ' :: writeDescriptors ds)))

/-- internal/visitors/visitor_file.go:88: `fmt.Sprintf("local %d", n)`. -/
def localSymbol (n : Nat) : Str := go!"local " ++ Str.natDigits n

end Verif
