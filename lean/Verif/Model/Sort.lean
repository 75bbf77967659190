import Verif.Model.Str
/-!
# Ordering of Go strings, sorting (dependencies: `<` on strings, package `sort`, `slices.Sort`)
-/
namespace Verif

/-- Go's `<` on strings: lexicographic by byte. -/
def Str.lt : Str → Str → Bool
  | _, [] => false
  | [], _ :: _ => true
  | c :: s, d :: t => if c.toNat < d.toNat then true else if d.toNat < c.toNat then false else Str.lt s t

/-- Insert into a strictly sorted list; an element already present is not inserted again. -/
def insertSym (x : Str) : List Str → List Str
  | [] => [x]
  | y :: r => if Str.lt x y then x :: y :: r else if Str.lt y x then y :: insertSym x r else y :: r

/-- `scip.CanonicalizeRelationships` (dependency, called in implementations.go:116-119): relationships with the same symbol
are merged and the result is sorted by symbol.  All relationships scip-go creates have the same flags
(implementations.go:97-100, 109-112), so a relationship is represented by its symbol. -/
def canonicalize : List Str → List Str
  | [] => []
  | x :: r => insertSym x (canonicalize r)

/-- Stable insertion into a sorted list (equal elements go after). -/
def insertBy {α : Type} (le : α → α → Bool) (x : α) : List α → List α
  | [] => [x]
  | y :: r => if le x y then x :: y :: r else y :: insertBy le x r

/-- A stable sort (`slices.SortStableFunc`, `sort.Slice` on lists without equal elements). -/
def sortBy {α : Type} (le : α → α → Bool) : List α → List α
  | [] => []
  | x :: r => insertBy le x (sortBy le r)

/-- `slices.Sort` on strings. -/
def sortStrs : List Str → List Str := sortBy (fun a b => !Str.lt b a)

end Verif
