import Verif.Model.Str
/-!
# Regular expressions (dependency: Go package `regexp`)

Only what is needed for `module.pseudoVersionRE` (golang.org/x/mod/module/pseudo.go): whole-string matching (`^…$`).
Matching is by derivatives instead of Go's automaton.
-/
namespace Verif

inductive Re where
  | none
  | eps
  /-- one character of a class -/
  | cls (p : Char → Bool)
  | cat (a b : Re)
  | alt (a b : Re)
  | star (a : Re)

namespace Re
/-- Does the expression match the empty string? -/
def nullable : Re → Bool
  | .none => false
  | .eps => true
  | .cls _ => false
  | .cat a b => nullable a && nullable b
  | .alt a b => nullable a || nullable b
  | .star _ => true

/-- What remains to be matched after a character. -/
def deriv (c : Char) : Re → Re
  | .none => .none
  | .eps => .none
  | .cls p => if p c then .eps else .none
  | .cat a b => if nullable a then .alt (.cat (deriv c a) b) (deriv c b) else .cat (deriv c a) b
  | .alt a b => .alt (deriv c a) (deriv c b)
  | .star a => .cat (deriv c a) (.star a)

/-- `regexp.MatchString` of an expression anchored on both ends. -/
def isMatch : Re → Str → Bool
  | r, [] => nullable r
  | r, c :: s => isMatch (deriv c r) s

def chr (c : Char) : Re := .cls (· == c)
def plus (a : Re) : Re := .cat a (.star a)
def opt (a : Re) : Re := .alt a .eps
def times : Nat → Re → Re
  | 0, _ => .eps
  | n + 1, a => .cat a (times n a)
/-- A literal. -/
def lit : Str → Re
  | [] => .eps
  | c :: s => .cat (chr c) (lit s)
end Re
end Verif
