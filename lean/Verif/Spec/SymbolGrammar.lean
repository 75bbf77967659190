import Verif.Model.Symbol
/-!
# Specification: decoding SCIP symbol strings

A reader for the SCIP symbol grammar, written independently of the formatter:

    symbol  = field ' ' field ' ' field ' ' field ' ' descriptor*
    field   = any characters, a space inside a field is doubled
    descriptor = name suffix
    name    = simple characters | '`' (any char, '`' doubled) '`'
    suffix  = '/' | '#' | '.' | ':' | '().'
-/
namespace Verif.Spec

/-- Read one space-terminated field (`  ` stands for a space in the field). -/
def readField : Str → Option (Str × Str)
  | [] => none
  | ' ' :: ' ' :: r => (readField r).map fun (f, t) => (' ' :: f, t)
  | ' ' :: r => some ([], r)
  | c :: r => (readField r).map fun (f, t) => (c :: f, t)

/-- Read up to the closing back-tick (two back-ticks stand for one in the name). -/
def readQuoted : Str → Option (Str × Str)
  | [] => none
  | '`' :: '`' :: r => (readQuoted r).map fun (f, t) => ('`' :: f, t)
  | '`' :: r => some ([], r)
  | c :: r => (readQuoted r).map fun (f, t) => (c :: f, t)

/-- The characters of the SCIP grammar that need no back-ticks: `'_' | '+' | '-' | '$' | ASCII letter or digit`. -/
def simpleChars : Str :=
  go!"_+-$abcdefghijklmnopqrstuvwxyzABCDEFGHIJKLMNOPQRSTUVWXYZ0123456789"

def readName : Str → Option (Str × Str)
  | '`' :: r => readQuoted r
  | s => some (s.takeWhile (· ∈ simpleChars), s.dropWhile (· ∈ simpleChars))

/-- The canonical text of a name: as it is if all its characters are simple, otherwise quoted with every back-tick doubled. -/
def canonicalName (s : Str) : Str :=
  if ∀ c ∈ s, c ∈ simpleChars then s
  else ['`'] ++ s.flatMap (fun c => if c = '`' then ['`', '`'] else [c]) ++ ['`']

/-- The punctuation behind a name. -/
def suffixText (x : Suffix) : Str :=
  match x with
  | .nspace => go!"/"
  | .typ => go!"#"
  | .term => go!"."
  | .metadesc => go!":"
  | .method => go!"()."

def readSuffix : Str → Option (Suffix × Str)
  | '/' :: r => some (.nspace, r)
  | '#' :: r => some (.typ, r)
  | '.' :: r => some (.term, r)
  | ':' :: r => some (.metadesc, r)
  | '(' :: ')' :: '.' :: r => some (.method, r)
  | _ => none

def readDescriptors : Nat → Str → Option (List Descriptor)
  | _, [] => some []
  | 0, _ => none
  | fuel + 1, s => do
    let (name, s) ← readName s
    let (suffix, s) ← readSuffix s
    let ds ← readDescriptors fuel s
    return ⟨name, suffix⟩ :: ds

/-- A decoded symbol. -/
structure Decoded where
  scheme : Str
  manager : Str
  pkgName : Str
  pkgVersion : Str
  descriptors : List Descriptor
  deriving DecidableEq, Repr

/-- Decode a symbol string (the fuel `s.length` is enough because every descriptor has a suffix). -/
def decodeSymbol (s : Str) : Option Decoded := do
  let (scheme, s) ← readField s
  let (manager, s) ← readField s
  let (name, s) ← readField s
  let (version, s) ← readField s
  let ds ← readDescriptors s.length s
  return ⟨scheme, manager, name, version, ds⟩

/-- What a module path or version must satisfy to be representable: not empty, and not starting with a
space. -/
def fieldOk (s : Str) : Prop := s ≠ [] ∧ s.head? ≠ some ' '

instance (s : Str) : Decidable (fieldOk s) := inferInstanceAs (Decidable (_ ∧ _))

end Verif.Spec
