import Verif.Model.TypeString
import Verif.Spec.Documentation
/-!
# Types as the checker of Go produces them, for the text of a type

Which names, paths and forms can occur; nothing here refers to how a type is printed.
-/
namespace Verif.Ts.Spec

/-- The keywords of Go. -/
def keywords : List Str :=
  [go!"break", go!"case", go!"chan", go!"const", go!"continue", go!"default", go!"defer", go!"else", go!"fallthrough", go!"for", go!"func", go!"go",
   go!"goto", go!"if", go!"import", go!"interface", go!"map", go!"package", go!"range", go!"return", go!"select", go!"struct", go!"switch",
   go!"type", go!"var"]

/-- A character that Go allows in an import path or an identifier (Go forbids more than this in import paths). -/
def pathChar (c : Char) : Bool := c ∉ [' ', ',', ';', '(', ')', '[', ']', '{', '}', '"', '|', '*', '<', '`', '=']

/-- An identifier. -/
def Identifier (n : Str) : Prop := n ≠ [] ∧ (∀ c ∈ n, pathChar c = true) ∧ '.' ∉ n ∧ '/' ∉ n ∧ n ∉ keywords ∧ '~' ∉ n

/-- An import path (a path beginning with `~`, which Go would allow, is left out). -/
def ImportPath (p : Str) : Prop := (∀ c ∈ p, pathChar c = true) ∧ p ≠ [] ∧ p.head? ≠ some '.' ∧ p.head? ≠ some '~'

/-- A declared type, alias or predeclared type. -/
def IsRef : TExpr Str → Prop
  | .ref _ _ _ => True
  | _ => False

/-- What a struct can embed: a declared type, or a pointer to one. -/
def Embeddable : TExpr Str → Prop
  | .ref _ _ _ => True
  | .ptr (.ref _ _ _) => True
  | _ => False

/-- A union as it occurs in a constraint: several terms, or one with `~`. -/
def Proper : Terms Str → Prop
  | .nil => False
  | .cons tilde _ .nil => tilde = true
  | .cons _ _ (.cons _ _ _) => True

/-- The last parameter exists and is a slice. -/
def LastIsSlice : Params Str → Prop
  | .nil => False
  | .cons _ (.slice _) .nil => True
  | .cons _ _ .nil => False
  | .cons _ _ (.cons n t ps) => LastIsSlice (.cons n t ps)

mutual
/-- The types of variables and fields: packages by import path or name, unions only as elements of interfaces.  `own`: names of declared
types that are written without package. -/
def WellFormed (own : List Str) : TExpr Str → Prop
  | .ref none n args => (n ∈ predeclared ∨ n ∈ own ∧ Identifier n) ∧ WellFormedL own args
  | .ref (some p) n args => ImportPath p ∧ Identifier n ∧ WellFormedL own args
  | .tparam n => Identifier n ∧ n ∉ own
  | .array _ e => WellFormed own e
  | .slice e => WellFormed own e
  | .ptr e => WellFormed own e
  | .map k e => WellFormed own k ∧ WellFormed own e
  | .chan _ e => WellFormed own e
  | .func g => WellFormedS own g
  | .struct fs => WellFormedF own fs
  | .iface ms es => WellFormedM own ms ∧ WellFormedE own es
  | .union _ => False
def WellFormedL (own : List Str) : TList Str → Prop
  | .nil => True
  | .cons t ts => WellFormed own t ∧ WellFormedL own ts
def WellFormedE (own : List Str) : TList Str → Prop
  | .nil => True
  | .cons t ts => (WellFormed own t ∨ WellFormedU own t) ∧ WellFormedE own ts
def WellFormedU (own : List Str) : TExpr Str → Prop
  | .union ts => Proper ts ∧ WellFormedT own ts
  | _ => False
def WellFormedT (own : List Str) : Terms Str → Prop
  | .nil => True
  | .cons _ t ts => WellFormed own t ∧ WellFormedT own ts
def WellFormedS (own : List Str) : Sig Str → Prop
  | .mk ps v rs => WellFormedP own ps ∧ WellFormedP own rs ∧ (v = true → LastIsSlice ps)
def WellFormedP (own : List Str) : Params Str → Prop
  | .nil => True
  | .cons n t ps => (n = [] ∨ Identifier n) ∧ WellFormed own t ∧ WellFormedP own ps
def WellFormedF (own : List Str) : Fields Str → Prop
  | .nil => True
  | .cons (some n) t _ fs => Identifier n ∧ WellFormed own t ∧ WellFormedF own fs
  | .cons none t _ fs => Embeddable t ∧ WellFormed own t ∧ WellFormedF own fs
def WellFormedM (own : List Str) : Methods Str → Prop
  | .nil => True
  | .cons n g ms => Identifier n ∧ WellFormedS own g ∧ WellFormedM own ms
end

mutual
/-- A type with all names of parameters and results removed and every alias replaced by the type it denotes; `alias` gives the (fully
resolved) type of an alias without type arguments. -/
def resolved (alias : Option Str → Str → Option (TExpr Str)) : TExpr Str → TExpr Str
  | .ref pkg n .nil => (alias pkg n).getD (.ref pkg n .nil)
  | .ref pkg n (.cons t ts) => .ref pkg n (.cons (resolved alias t) (resolvedL alias ts))
  | .tparam n => .tparam n
  | .array l e => .array l (resolved alias e)
  | .slice e => .slice (resolved alias e)
  | .ptr e => .ptr (resolved alias e)
  | .map k e => .map (resolved alias k) (resolved alias e)
  | .chan d e => .chan d (resolved alias e)
  | .func g => .func (resolvedS alias g)
  | .struct fs => .struct (resolvedF alias fs)
  | .iface ms es => .iface (resolvedM alias ms) (resolvedL alias es)
  | .union ts => .union ts
def resolvedL (alias : Option Str → Str → Option (TExpr Str)) : TList Str → TList Str
  | .nil => .nil
  | .cons t ts => .cons (resolved alias t) (resolvedL alias ts)
def resolvedS (alias : Option Str → Str → Option (TExpr Str)) : Sig Str → Sig Str
  | .mk ps v rs => .mk (resolvedP alias ps) v (resolvedP alias rs)
def resolvedP (alias : Option Str → Str → Option (TExpr Str)) : Params Str → Params Str
  | .nil => .nil
  | .cons _ t ps => .cons [] (resolved alias t) (resolvedP alias ps)
def resolvedF (alias : Option Str → Str → Option (TExpr Str)) : Fields Str → Fields Str
  | .nil => .nil
  | .cons n t tag fs => .cons n (resolved alias t) tag (resolvedF alias fs)
def resolvedM (alias : Option Str → Str → Option (TExpr Str)) : Methods Str → Methods Str
  | .nil => .nil
  | .cons n g ms => .cons n (resolvedS alias g) (resolvedM alias ms)
end

/-- Go's type identity, for types without embedded interfaces (there also method sets would have to be computed): aliases and the names of
parameters do not matter, everything else does. -/
def Identical (alias : Option Str → Str → Option (TExpr Str)) (a b : TExpr Str) : Prop := resolved alias a = resolved alias b

/-- The type mentions no alias and no name of a parameter or result. -/
def Plain (alias : Option Str → Str → Option (TExpr Str)) (t : TExpr Str) : Prop := resolved alias t = t

/-- The predeclared aliases. -/
def predeclaredAlias : Option Str → Str → Option (TExpr Str)
  | none, n =>
    if n = go!"any" then some (.iface .nil .nil) else if n = go!"byte" then some (.ref none go!"uint8" .nil)
    else if n = go!"rune" then some (.ref none go!"int32" .nil) else none
  | _, _ => none

/-- What `strconv.Quote` promises: a literal in double quotes from which the text can be read back. -/
def Quotes (quote : Str → Str) (unquote : Str → Option Str) : Prop :=
  ∀ s, ∃ body, quote s = '"' :: (body ++ ['"']) ∧ Verif.Spec.QuotedBody body ∧ unquote (quote s) = some s

/-- A way to write string literals in Go: in double quotes, or, if there is no back-tick in the text, in back-ticks. -/
def Literals (quote : Str → Str) (unquote : Str → Option Str) : Prop :=
  ∀ s, (∃ body, quote s = '"' :: (body ++ ['"']) ∧ Verif.Spec.QuotedBody body ∧ unquote (quote s) = some s) ∨
    '`' ∉ s ∧ quote s = '`' :: (s ++ ['`'])

end Verif.Ts.Spec
