import Verif.Model.Index
/-! # Specification: the order of the package documentation -/
namespace Verif.Spec
open Verif.Index

/-- A file name: a directory (empty or with its final slash), the stem and the extension after the last dot. -/
structure IsFileName (dir stem ext : Str) : Prop where
  dir : dir = [] ∨ ∃ d, dir = d ++ ['/']
  stem : '/' ∉ stem
  extSlash : '/' ∉ ext
  extDot : '.' ∉ ext

/-- doc.go first, then the file named like the package, then other files, then tests. -/
def relevance (pkgName stem ext : Str) : Nat :=
  if stem = go!"doc" ∧ ext = go!"go" then 0
  else if stem = pkgName then 1
  else if ext = go!"go" ∧ go!"_test" <:+ stem then 3
  else 2

/-- The doc comments of the files in class `k`, in file order. -/
def docsOfClass (cls : SourceFile → Nat) (k : Nat) (files : List SourceFile) : List Str :=
  (files.filter (fun f => cls f == k)).filterMap (·.doc)

end Verif.Spec
