import Verif.Model.Str
/-!
# Package `path/filepath` on Unix (dependency)

Paths are split into components; the byte scanning of the originals is replaced by work on component lists.
-/
namespace Verif.Filepath

/-- The components of a path. -/
def comps (s : Str) : List Str := Str.splitOn '/' s

/-- One component in `filepath.Clean`; the stack is reversed. -/
def cleanStep (rooted : Bool) (stack : List Str) (c : Str) : List Str :=
  if c = [] ∨ c = go!"." then stack
  else if c = go!".." then
    (match stack with
    | [] => if rooted then [] else [go!".."]
    | top :: rest => if top = go!".." then go!".." :: top :: rest else rest)
  else c :: stack

def isAbs (s : Str) : Bool := s.head? == some '/'

/-- The components of a cleaned path. -/
def cleanComps (s : Str) : List Str := ((comps s).foldl (cleanStep (isAbs s)) []).reverse

/-- filepath.Clean. -/
def clean (s : Str) : Str :=
  if isAbs s then '/' :: Str.join go!"/" (cleanComps s)
  else if cleanComps s = [] then go!"." else Str.join go!"/" (cleanComps s)

/-- The components of a string without its leading separator; none for the empty string. -/
def pieces (s : Str) : List Str := if s = [] then [] else comps s

/-- Drop the common leading components. -/
def dropCommon : List Str → List Str → List Str × List Str
  | a :: as, b :: bs => if a = b then dropCommon as bs else (a :: as, b :: bs)
  | as, bs => (as, bs)

/-- filepath.Rel (none: error).  The scan for the first differing component works on component lists. -/
def rel (basepath targpath : Str) : Option Str :=
  let base := clean basepath
  let targ := clean targpath
  if targ = base then some go!"."
  else
    let base := if base = go!"." then [] else base
    if isAbs base ≠ isAbs targ then none
    else
      let r := dropCommon (pieces (if isAbs base then base.drop 1 else base)) (pieces (if isAbs targ then targ.drop 1 else targ))
      match r with
      | (b :: bs, ts) =>
        if b = go!".." then none
        else some (Str.join go!"/" ((b :: bs).map (fun _ => go!"..") ++ ts))
      | ([], ts) => some (Str.join go!"/" ts)

/-- filepath.IsLocal. -/
def isLocal (path : Str) : Bool :=
  if isAbs path ∨ path = [] then false
  else
    let path := if (comps path).any (fun c => c == go!"." || c == go!"..") then clean path else path
    !(path == go!".." || Str.hasPrefix path go!"../")

/-- `rel, err := filepath.Rel(a, b); err == nil && filepath.IsLocal(rel)` (internal/loader/loader.go:289, 292). -/
def relLocal (a b : Str) : Bool :=
  match rel a b with
  | some r => isLocal r
  | none => false

/-- isNestedDir (internal/loader/loader.go:285-296). -/
def isNestedDir (dirA dirB : Str) : Bool :=
  if dirA = [] ∨ dirB = [] then false
  else if relLocal dirA dirB then true
  else if relLocal dirB dirA then true
  else false

/-- filepath.Dir on Unix. Simplified: the directory of a cleaned path. -/
def dir (s : Str) : Str :=
  clean (s.reverse.dropWhile (· != '/')).reverse

end Verif.Filepath
