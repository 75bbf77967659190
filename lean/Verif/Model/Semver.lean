import Verif.Model.Regexp
/-!
# Semantic versions and pseudo-versions (dependency: golang.org/x/mod/semver, golang.org/x/mod/module)

Called from internal/loader/loader.go:243-262 and internal/git/infer_module_version.go.  The dependency is not in the
sandbox; this re-models its published source (x/mod v0.36.0).
-/
namespace Verif.Semver

def isDigit (c : Char) : Bool := '0' ≤ c && c ≤ '9'
def isLetter (c : Char) : Bool := ('A' ≤ c && c ≤ 'Z') || ('a' ≤ c && c ≤ 'z')
/-- semver.isIdentChar. -/
def isIdentChar (c : Char) : Bool := isLetter c || isDigit c || c == '-'

/-- semver.parseInt: a decimal number without leading zero, and the rest. -/
def parseInt : Str → Option (Str × Str)
  | [] => none
  | c :: r =>
    if isDigit c = false then none
    else
      let t := (c :: r).takeWhile isDigit
      if c = '0' ∧ t.length ≠ 1 then none else some (t, (c :: r).dropWhile isDigit)

/-- semver.isBadNum: a number with leading zero. -/
def isBadNum (s : Str) : Bool := s.all isDigit && decide (1 < s.length) && s.head? == some '0'

/-- The loop of semver.parsePrerelease after the `-`; `cur` is the current identifier.  Gives the text read and the rest. -/
def preLoop (cur : Str) : Str → Option (Str × Str)
  | [] => if cur = [] ∨ isBadNum cur then none else some ([], [])
  | c :: r =>
    if c = '+' then (if cur = [] ∨ isBadNum cur then none else some ([], c :: r))
    else if isIdentChar c = false ∧ c ≠ '.' then none
    else if c = '.' then
      (if cur = [] ∨ isBadNum cur then none else (preLoop [] r).map fun x => (c :: x.1, x.2))
    else (preLoop (cur ++ [c]) r).map fun x => (c :: x.1, x.2)

/-- The loop of semver.parseBuild after the `+`: the rest of the string must be dot separated identifiers;
`empty` says whether the current identifier is still empty. -/
def buildLoop (empty : Bool) : Str → Bool
  | [] => !empty
  | c :: r =>
    if isIdentChar c = false ∧ c ≠ '.' then false
    else if c = '.' then (if empty then false else buildLoop true r)
    else buildLoop false r

/-- The end of semver.parse: optional build metadata. -/
def parseBuild : Str → Option Str
  | [] => some []
  | c :: r => if c = '+' then (if buildLoop true r then some (c :: r) else none) else none

/-- The part of semver.parse after the patch number: optional prerelease, optional build metadata. -/
def parseTail : Str → Option Str
  | [] => some []
  | c :: r => if c = '-' then (match preLoop [] r with | none => none | some (_, v) => parseBuild v) else parseBuild (c :: r)

/-- The patch number and what follows. -/
def parsePatch (v : Str) : Option Str :=
  match parseInt v with
  | none => none
  | some (_, v) => parseTail v

/-- The minor number and what follows. -/
def parseMinor (v : Str) : Option Str :=
  match parseInt v with
  | none => none
  | some (_, []) => some []
  | some (_, c :: v) => if c = '.' then parsePatch v else none

/-- The major number and what follows. -/
def parseMajor (v : Str) : Option Str :=
  match parseInt v with
  | none => none
  | some (_, []) => some []
  | some (_, c :: v) => if c = '.' then parseMinor v else none

/-- semver.parse, keeping only the build metadata of the result (none of the callers uses the other parts). -/
def parse : Str → Option Str
  | [] => none
  | c :: v => if c = 'v' then parseMajor v else none

/-- semver.IsValid. -/
def isValid (v : Str) : Bool := (parse v).isSome
/-- semver.Build. -/
def build (v : Str) : Str := (parse v).getD []

/-- module.pseudoVersionRE:
`^v[0-9]+\.(0\.0-|\d+\.\d+-([^+]*\.)?0\.)\d{14}-[A-Za-z0-9]+(\+[0-9A-Za-z-]+(\.[0-9A-Za-z-]+)*)?$`. -/
def pseudoRE : Re :=
  .cat (Re.chr 'v') (.cat (Re.plus (.cls isDigit)) (.cat (Re.chr '.') (.cat
    (.alt (Re.lit go!"0.0-")
      (.cat (Re.plus (.cls isDigit)) (.cat (Re.chr '.') (.cat (Re.plus (.cls isDigit)) (.cat (Re.chr '-')
        (.cat (Re.opt (.cat (.star (.cls (· != '+'))) (Re.chr '.'))) (Re.lit go!"0.")))))))
    (.cat (Re.times 14 (.cls isDigit)) (.cat (Re.chr '-') (.cat (Re.plus (.cls fun c => isLetter c || isDigit c))
      (Re.opt (.cat (Re.chr '+') (.cat (Re.plus (.cls isIdentChar))
        (.star (.cat (Re.chr '.') (Re.plus (.cls isIdentChar))))))))))))) 

/-- module.IsPseudoVersion. -/
def isPseudoVersion (v : Str) : Bool :=
  decide (2 ≤ v.count '-') && isValid v && pseudoRE.isMatch v

/-- The text after the last `c` (`v[strings.LastIndex(v, c)+1:]`). -/
def afterLast (c : Char) (v : Str) : Str := (v.reverse.takeWhile (· != c)).reverse

/-- module.PseudoVersionRev (none: error). Of module.parsePseudoVersion only the revision is kept. -/
def pseudoVersionRev (v : Str) : Option Str :=
  if isPseudoVersion v then some (afterLast '-' (Str.trimSuffix v (build v))) else none

end Verif.Semver
