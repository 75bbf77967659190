import Verif.Model.Unicode
/-!
# Specification: UTF-8 and exported names

The Go specification: an identifier is exported if its first character is a Unicode upper-case letter (category Lu).  Strings are lists of
bytes, so the first character is the one whose UTF-8 encoding the string starts with.
-/
namespace Verif.Spec

/-- A byte of a string. -/
def byte (n : Nat) : Char := Char.ofNat n

/-- The UTF-8 encoding of a code point (RFC 3629). -/
def utf8 (r : Nat) : Str :=
  if r < 0x80 then [byte r]
  else if r < 0x800 then [byte (0xC0 + r / 64), byte (0x80 + r % 64)]
  else if r < 0x10000 then [byte (0xE0 + r / 4096), byte (0x80 + r / 64 % 64), byte (0x80 + r % 64)]
  else [byte (0xF0 + r / 262144), byte (0x80 + r / 4096 % 64), byte (0x80 + r / 64 % 64), byte (0x80 + r % 64)]

/-- A code point that is not a surrogate. -/
def Scalar (r : Nat) : Prop := r < 0xD800 ∨ (0xDFFF < r ∧ r < 0x110000)

/-- An upper-case letter: an element of one of the ranges of the Unicode category Lu. -/
def UpperCase (r : Nat) : Prop := ∃ lo hi stride k, (lo, hi, stride) ∈ Unicode.upperRanges ∧ r = lo + k * stride ∧ r ≤ hi

/-- An exported name. -/
def Exported (s : Str) : Prop := ∃ r rest, UpperCase r ∧ s = utf8 r ++ rest

/-! ### White space -/

/-- The code points with the Unicode property White_Space. -/
def whiteSpace : List Nat :=
  [0x20, 0x09, 0x0A, 0x0B, 0x0C, 0x0D, 0x85, 0xA0, 0x1680, 0x2000, 0x2001, 0x2002, 0x2003, 0x2004, 0x2005, 0x2006, 0x2007, 0x2008, 0x2009, 0x200A,
   0x2028, 0x2029, 0x202F, 0x205F, 0x3000]

/-- The encoding of a white-space character. -/
def Blank (w : Str) : Prop := ∃ r ∈ whiteSpace, w = utf8 r

/-- White space only. -/
def AllBlank (s : Str) : Prop := ∃ ws : List Str, (∀ w ∈ ws, Blank w) ∧ s = ws.flatten

/-- No white space at either end. -/
def NoBlankEnds (s : Str) : Prop := ∀ w, Blank w → ¬ w <+: s ∧ ¬ w <:+ s

/-- `t` is `s` without the white space at its ends. -/
def Trimmed (s t : Str) : Prop := ∃ a b, s = a ++ t ++ b ∧ AllBlank a ∧ AllBlank b ∧ NoBlankEnds t

end Verif.Spec
