/-!
# Go strings

A Go `string` is modelled as a list of characters, one `Char` per byte (`Str`).  All string scanning in
the modelled code compares with ASCII bytes only, so reading bytes as characters changes no branch.
The functions below model the few functions of Go's `strings` package that the code uses.
-/
namespace Verif

/-- A Go string. -/
abbrev Str := List Char

/-- `go!"abc"` is the Go string constant `"abc"`, written out as a list of character literals. -/
macro:max "go!" s:str : term => do
  let cs := s.getString.toList.toArray.map (fun c => Lean.Syntax.mkCharLit c)
  `(([$cs,*] : List Char))

namespace Str

/-- Go `strings.HasPrefix` (used e.g. in internal/loader/loader.go:201, internal/document/document.go:31). -/
def hasPrefix (s p : Str) : Bool := p.isPrefixOf s

/-- Go `strings.HasSuffix` (used in internal/index/package_ident.go:44). -/
def hasSuffix (s p : Str) : Bool := p.isSuffixOf s

/-- Go `strings.TrimPrefix` (used in internal/loader/loader.go:173, internal/git/infer_repo.go:28). -/
def trimPrefix (s p : Str) : Str := if hasPrefix s p then s.drop p.length else s

/-- Go `strings.TrimSuffix` (used in internal/loader/loader.go:262, internal/git/infer_repo.go:29,36). -/
def trimSuffix (s p : Str) : Str := if hasSuffix s p then s.take (s.length - p.length) else s

/-- Go `strings.Split` / `strings.SplitSeq` for a one-byte separator
(internal/git/infer_module_version.go:21, internal/document/document.go:30). Never returns the empty list. -/
def splitOn (c : Char) : Str → List Str
  | [] => [[]]
  | d :: r =>
    if d = c then [] :: splitOn c r
    else match splitOn c r with
      | [] => [[d]]
      | h :: t => (d :: h) :: t

/-- Go `strings.Join` with a separator (internal/git/infer_repo.go:27). -/
def join (sep : Str) : List Str → Str
  | [] => []
  | [a] => a
  | a :: b :: r => a ++ sep ++ join sep (b :: r)

/-- White space in the sense of `unicode.IsSpace` (Go standard library), as UTF-8: space, tab, newline, vertical tab, form feed, carriage
return, U+0085, U+00A0, U+1680, U+2000 to U+200A, U+2028, U+2029, U+202F, U+205F, U+3000. -/
def blanks : List Str :=
  [[' '], ['\t'], ['\n'], ['\x0b'], ['\x0c'], ['\r'], ['\xc2', '\x85'], ['\xc2', '\xa0'], ['\xe1', '\x9a', '\x80'],
   ['\xe2', '\x80', '\x80'], ['\xe2', '\x80', '\x81'], ['\xe2', '\x80', '\x82'], ['\xe2', '\x80', '\x83'],
   ['\xe2', '\x80', '\x84'], ['\xe2', '\x80', '\x85'], ['\xe2', '\x80', '\x86'], ['\xe2', '\x80', '\x87'],
   ['\xe2', '\x80', '\x88'], ['\xe2', '\x80', '\x89'], ['\xe2', '\x80', '\x8a'], ['\xe2', '\x80', '\xa8'],
   ['\xe2', '\x80', '\xa9'], ['\xe2', '\x80', '\xaf'], ['\xe2', '\x81', '\x9f'], ['\xe3', '\x80', '\x80']]

/-- Remove words of the list from the front of a string, as long as there is one; the number bounds the rounds. -/
def strip (ws : List Str) : Nat → Str → Str
  | 0, s => s
  | n + 1, s =>
    match ws.find? (fun w => w.isPrefixOf s) with
    | some w => strip ws n (s.drop w.length)
    | none => s

/-- Go `strings.TrimSpace` (internal/command/command.go:16, internal/document/document.go:129,150-178): runes of white space are removed
at the front, then at the end. -/
def trimSpace (s : Str) : Str :=
  let t := strip blanks s.length s
  (strip (blanks.map List.reverse) t.length t.reverse).reverse

/-- The unsigned decimal rendering of Go `fmt.Sprintf("%d", n)` for a natural number. -/
def digitChar (n : Nat) : Char := Char.ofNat (48 + n)

def natDigits (n : Nat) : Str :=
  if _h : n < 10 then [digitChar n] else natDigits (n / 10) ++ [digitChar (n % 10)]
termination_by n

end Str
end Verif
