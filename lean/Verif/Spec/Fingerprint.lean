import Verif.Model.Fingerprint
import Verif.Lemmas.Unicode
/-!
# Specification: type identity, the fingerprint grammar and instantiation
-/
namespace Verif.Fp.Spec
open Verif Verif.Fp

/-! ### Go's type identity (Go specification, "Type identity") -/

/-- Two struct fields have the same name (non-exported names of different packages differ), both or none are embedded, and
their tags are equal. -/
def sameField (h k : FieldHdr) : Prop :=
  h.name = k.name ∧ (Verif.Spec.Exported h.name ∨ h.pkg = k.pkg) ∧ h.embedded = k.embedded ∧ h.tag = k.tag

mutual
/-- Type identity. A declared type is identical only to itself (with identical type arguments); a type parameter only to
itself; aliases denote their target; other types are compared component by component. -/
inductive Identical : Ty → Ty → Prop
  | aliasL {t u} : Identical t u → Identical (.alias t) u
  | aliasR {t u} : Identical t u → Identical t (.alias u)
  | named {d p n as bs} : IdenticalEach as bs → Identical (.named d p n as) (.named d p n bs)
  | array {l t u} : Identical t u → Identical (.array l t) (.array l u)
  | slice {t u} : Identical t u → Identical (.slice t) (.slice u)
  | ptr {t u} : Identical t u → Identical (.ptr t) (.ptr u)
  | map {k l t u} : Identical k l → Identical t u → Identical (.map k t) (.map l u)
  | chan {d t u} : Identical t u → Identical (.chan d t) (.chan d u)
  | basic {b} : Identical (.basic b) (.basic b)
  | sig {ps qs v rs ss} : IdenticalEach ps qs → IdenticalEach rs ss → Identical (.sig ps v rs) (.sig qs v ss)
  | struct {fs gs} : IdenticalFields fs gs → Identical (.struct fs) (.struct gs)
  | iface {ms ns} : IdenticalMethods ms ns → Identical (.iface ms) (.iface ns)
  | typeParam {id i} : Identical (.typeParam id i) (.typeParam id i)
inductive IdenticalEach : Tys → Tys → Prop
  | nil : IdenticalEach .nil .nil
  | cons {t u ts us} : Identical t u → IdenticalEach ts us → IdenticalEach (.cons t ts) (.cons u us)
inductive IdenticalFields : Fields → Fields → Prop
  | nil : IdenticalFields .nil .nil
  | cons {h k t u fs gs} : sameField h k → Identical t u → IdenticalFields fs gs →
      IdenticalFields (.cons h t fs) (.cons k u gs)
inductive IdenticalMethods : Methods → Methods → Prop
  | nil : IdenticalMethods .nil .nil
  | cons {id t u ms ns} : Identical t u → IdenticalMethods ms ns → IdenticalMethods (.cons id t ms) (.cons id u ns)
end

/-! ### Well-formed types -/

/-- What is assumed of `strconv.Quote`, `strconv.Unquote`, `unicode.IsLetter` and `unicode.IsDigit`: a quoted text is one
string token (lower-case words are only put in quotes) and unquotes to the text; blanks, quotes, parentheses and digits are not letters. -/
structure LexOk (L : Lex) : Prop where
  quoted : ∀ s, ∃ body, L.quote s = '"' :: body ∧ ∀ rest, scanStr (body ++ rest) = some (body, rest)
  quote_plain : ∀ s, (∀ c ∈ s, 'a' ≤ c ∧ c ≤ 'z') → L.quote s = '"' :: (s ++ ['"'])
  unquote_quote : ∀ s, L.unquote (L.quote s) = some s
  not_letter : ∀ c ∈ go!" \t\n\r\"()0123456789", L.letter c = false
  not_digit : L.digit ' ' = false ∧ L.digit ')' = false
  ascii_letter : ∀ c, ('a' ≤ c ∧ c ≤ 'z') ∨ c = 'P' → L.letter c = true
  ascii_digit : ∀ c, c.isDigit = true → L.digit c = true

/-- A Go identifier. -/
def IsIdent (L : Lex) : Str → Prop
  | [] => False
  | c :: r => L.letter c = true ∧ ∀ d ∈ r, L.letter d = true ∨ L.digit d = true

mutual
/-- A type that can occur in a method signature of a type-checked package: names are identifiers, only `error` and
`comparable` have no package, there are no untyped or invalid types and no unions, and package `unsafe` declares no
types (`unsafe.Pointer` is a basic type). -/
def Valid (L : Lex) : Ty → Prop
  | .alias t => Valid L t
  | .named _ pkg name targs =>
    (match pkg with
      | none => name = go!"error" ∨ name = go!"comparable"
      | some p => p ≠ go!"unsafe" ∧ IsIdent L name) ∧ ValidEach L targs
  | .array _ t => Valid L t
  | .slice t => Valid L t
  | .ptr t => Valid L t
  | .map k t => Valid L k ∧ Valid L t
  | .chan _ t => Valid L t
  | .basic b => b ≠ .invalid ∧ b ≠ .untyped
  | .sig ps _ rs => ValidEach L ps ∧ ValidEach L rs
  | .struct fs => ValidFields L fs
  | .iface _ => True
  | .typeParam _ _ => True
  | .union => False
def ValidEach (L : Lex) : Tys → Prop
  | .nil => True
  | .cons t ts => Valid L t ∧ ValidEach L ts
def ValidFields (L : Lex) : Fields → Prop
  | .nil => True
  | .cons h t fs => IsIdent L h.name ∧ Valid L t ∧ ValidFields L fs
end

mutual
/-- Every declared type is the one that `D` gives for its package and name: no two types share a qualified name. -/
def NamesUnique (D : Option Str → Str → Nat) : Ty → Prop
  | .alias t => NamesUnique D t
  | .named d pkg name targs => d = D pkg name ∧ NamesUniqueEach D targs
  | .array _ t => NamesUnique D t
  | .slice t => NamesUnique D t
  | .ptr t => NamesUnique D t
  | .map k t => NamesUnique D k ∧ NamesUnique D t
  | .chan _ t => NamesUnique D t
  | .basic _ => True
  | .sig ps _ rs => NamesUniqueEach D ps ∧ NamesUniqueEach D rs
  | .struct fs => NamesUniqueFields D fs
  | .iface _ => True
  | .typeParam _ _ => True
  | .union => True
def NamesUniqueEach (D : Option Str → Str → Nat) : Tys → Prop
  | .nil => True
  | .cons t ts => NamesUnique D t ∧ NamesUniqueEach D ts
def NamesUniqueFields (D : Option Str → Str → Nat) : Fields → Prop
  | .nil => True
  | .cons _ t fs => NamesUnique D t ∧ NamesUniqueFields D fs
end

/-! ### The fingerprint grammar (fingerprint.go:67-89) -/

/-- A parenthesised list of expressions. -/
def lst : List Sexpr → Sexpr
  | [] => .nil
  | x :: xs => .cons x (lst xs)

/-- The name of a basic type. -/
def basicTree : Basic → Sexpr
  | .bool => .sym go!"bool" | .int => .sym go!"int" | .int8 => .sym go!"int8" | .int16 => .sym go!"int16"
  | .int32 => .sym go!"rune" | .int64 => .sym go!"int64" | .uint => .sym go!"uint" | .uint8 => .sym go!"byte"
  | .uint16 => .sym go!"uint16" | .uint32 => .sym go!"uint32" | .uint64 => .sym go!"uint64"
  | .uintptr => .sym go!"uintptr" | .float32 => .sym go!"float32" | .float64 => .sym go!"float64"
  | .complex64 => .sym go!"complex64" | .complex128 => .sym go!"complex128" | .string => .sym go!"string"
  | .unsafePointer => lst [.sym go!"qual", .str go!"unsafe", .sym go!"Pointer"]
  | .invalid => .sym go!"invalid"
  | .untyped => .sym go!"untyped"

/-- `IDENT` or `(qual STRING IDENT)`. -/
def nameTree (pkg : Option Str) (name : Str) : Sexpr :=
  match pkg with
  | none => .sym name
  | some p => lst [.sym go!"qual", .str p, .sym name]

mutual
/-- The tree that the grammar prescribes for a type. -/
def tree : Ty → Sexpr
  | .alias t => tree t
  | .named _ pkg name .nil => nameTree pkg name
  | .named _ pkg name (.cons t ts) => lst (.sym go!"inst" :: nameTree pkg name :: trees (.cons t ts))
  | .array l t => lst [.sym go!"array", .int l, tree t]
  | .slice t => lst [.sym go!"slice", tree t]
  | .ptr t => lst [.sym go!"ptr", tree t]
  | .map k t => lst [.sym go!"map", tree k, tree t]
  | .chan d t => lst [.sym go!"chan", .int d, tree t]
  | .basic b => basicTree b
  | .sig ps false rs => lst [.sym go!"func", lst (.sym go!"tuple" :: trees ps), lst (.sym go!"tuple" :: trees rs)]
  | .sig ps true rs =>
    lst [.sym go!"func", lst (.sym go!"tuple" :: trees ps), .sym go!"v", lst (.sym go!"tuple" :: trees rs)]
  | .struct fs => lst (.sym go!"struct" :: fieldTrees fs)
  | .iface .nil => .sym go!"any"
  | .iface (.cons _ _ _) => lst [.sym go!"interface"]
  | .typeParam _ i => lst [.sym go!"typeparam", .int i]
  | .union => .nil
def trees : Tys → List Sexpr
  | .nil => []
  | .cons t ts => tree t :: trees ts
def fieldTrees : Fields → List Sexpr
  | .nil => []
  | .cons h t fs =>
    (if isExported h.name then .sym h.name else nameTree (some h.pkg) h.name) ::
    .sym (if h.embedded then go!"true" else go!"false") :: .str h.tag :: tree t :: fieldTrees fs
end

/-! ### Instantiation -/

/-- The type parameter that an expression is: `(typeparam INTEGER)`. -/
def paramOf : Sexpr → Option Nat
  | .cons (.sym s) (.cons (.int i) .nil) => if s = go!"typeparam" then some i else none
  | _ => none

/-- Replacing type parameters by expressions. -/
def inst (θ : Nat → Sexpr) : Sexpr → Sexpr
  | .cons a b => match paramOf (.cons a b) with
    | some i => θ i
    | none => .cons (inst θ a) (inst θ b)
  | x => x

/-- Type parameter `i` occurs in an expression. -/
def Contains (i : Nat) : Sexpr → Prop
  | .cons a b => match paramOf (.cons a b) with
    | some j => j = i
    | none => Contains i a ∨ Contains i b
  | _ => False

/-- The occurrences of type parameters in an expression, from left to right. -/
def occurrences : Sexpr → List Nat
  | .cons a b => match paramOf (.cons a b) with
    | some i => [i]
    | none => occurrences a ++ occurrences b
  | _ => []

/-- Expressions of the grammar: strings, integers, identifiers other than the key word `typeparam`, type parameters, and
non-empty lists of expressions (`tail` is true for the rest of a list).  `params` says whether type parameters may
occur. -/
def IsExpr (params : Bool) (tail : Bool) : Sexpr → Prop
  | .nil => tail = true
  | .str _ => tail = false
  | .int _ => tail = false
  | .sym s => tail = false ∧ s ≠ go!"typeparam"
  | .cons a b => (params = true ∧ tail = false ∧ (paramOf (.cons a b)).isSome) ∨
      (IsExpr params false a ∧ IsExpr params true b)

mutual
/-- No declared type and no struct field has the name `typeparam`, and there are no type parameters unless `params`. -/
def Matchable (params : Bool) : Ty → Prop
  | .alias t => Matchable params t
  | .named _ _ name targs => name ≠ go!"typeparam" ∧ MatchableEach params targs
  | .array _ t => Matchable params t
  | .slice t => Matchable params t
  | .ptr t => Matchable params t
  | .map k t => Matchable params k ∧ Matchable params t
  | .chan _ t => Matchable params t
  | .basic _ => True
  | .sig ps _ rs => MatchableEach params ps ∧ MatchableEach params rs
  | .struct fs => MatchableFields params fs
  | .iface _ => True
  | .typeParam _ _ => params = true
  | .union => False
def MatchableEach (params : Bool) : Tys → Prop
  | .nil => True
  | .cons t ts => Matchable params t ∧ MatchableEach params ts
def MatchableFields (params : Bool) : Fields → Prop
  | .nil => True
  | .cons h t fs => h.name ≠ go!"typeparam" ∧ Matchable params t ∧ MatchableFields params fs
end

/-! ### Types that a fingerprint does not determine -/

mutual
/-- A type parameter, or an interface literal that has a method, is part of the type. -/
inductive Vague : Ty → Prop
  | typeParam {d i} : Vague (.typeParam d i)
  | iface {n t ms} : Vague (.iface (.cons n t ms))
  | alias {t} : Vague t → Vague (.alias t)
  | targ {d p n ts} : VagueIn ts → Vague (.named d p n ts)
  | array {l t} : Vague t → Vague (.array l t)
  | slice {t} : Vague t → Vague (.slice t)
  | ptr {t} : Vague t → Vague (.ptr t)
  | mapKey {k t} : Vague k → Vague (.map k t)
  | mapElem {k t} : Vague t → Vague (.map k t)
  | chan {d t} : Vague t → Vague (.chan d t)
  | param {ps v rs} : VagueIn ps → Vague (.sig ps v rs)
  | result {ps v rs} : VagueIn rs → Vague (.sig ps v rs)
  | field {fs} : VagueField fs → Vague (.struct fs)
inductive VagueIn : Tys → Prop
  | head {t ts} : Vague t → VagueIn (.cons t ts)
  | tail {t ts} : VagueIn ts → VagueIn (.cons t ts)
inductive VagueField : Fields → Prop
  | head {h t fs} : Vague t → VagueField (.cons h t fs)
  | tail {h t fs} : VagueField fs → VagueField (.cons h t fs)
end

end Verif.Fp.Spec
