import Verif.Model.Str
/-!
# Specification: which directory an absolute path denotes (no symbolic links)
-/
namespace Verif.Spec

/-- One step of a walk through the directory tree; a directory is the list of names from the root. -/
def enter (dir : List Str) (name : Str) : List Str :=
  if name = [] ∨ name = go!"." then dir
  else if name = go!".." then dir.dropLast
  else dir ++ [name]

/-- The directory denoted by an absolute path. -/
def directory (path : Str) : List Str := (Str.splitOn '/' path).foldl enter []

def Absolute (path : Str) : Prop := path.head? = some '/'

/-- `a` is `b` or an ancestor of `b`. -/
def AtOrAbove (a b : List Str) : Prop := a <+: b

end Verif.Spec
