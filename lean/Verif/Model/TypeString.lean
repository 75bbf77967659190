import Verif.Model.Ast
/-!
# Rendering of types (dependency go/types: `types.TypeString`) and internal/visitors/anon_type_key.go

The dependency is not in the sandbox; this re-models the published source of go/types/typestring.go (the branches taken without a hashing
context), cross-checked against internal/testdata/snapshots/output.  Left out: cycles (impossible without type declarations inside the
printed type), error texts for nil types, type parameter lists of uninstantiated generic types (they never occur in the type of an
expression), and the special case of `append`.
-/
namespace Verif.Ts

/-- `types.ChanDir`. -/
inductive Dir where
  | both | send | recv
  deriving DecidableEq

mutual
/-- A type as it is printed.  `P` is the type of packages.  `ref` is a declared type, an alias or a predeclared type (package none) with its
type arguments (none: `nil`); `tparam` a type parameter; `union` a constraint element with its terms. -/
inductive TExpr (P : Type) where
  | ref (pkg : Option P) (name : Str) (args : TList P)
  | tparam (name : Str)
  | array (len : Nat) (elem : TExpr P)
  | slice (elem : TExpr P)
  | ptr (elem : TExpr P)
  | map (key elem : TExpr P)
  | chan (dir : Dir) (elem : TExpr P)
  | func (sig : Sig P)
  | struct (fields : Fields P)
  | iface (methods : Methods P) (embedded : TList P)
  | union (terms : Terms P)
inductive TList (P : Type) where
  | nil
  | cons (t : TExpr P) (ts : TList P)
/-- `types.Signature`; `variadic`: the last parameter is a slice, written with `...`. -/
inductive Sig (P : Type) where
  | mk (params : Params P) (variadic : Bool) (results : Params P)
/-- Parameters or results: name (empty: none) and type. -/
inductive Params (P : Type) where
  | nil
  | cons (name : Str) (t : TExpr P) (ps : Params P)
/-- Fields: name (none: embedded), type, tag. -/
inductive Fields (P : Type) where
  | nil
  | cons (name : Option Str) (t : TExpr P) (tag : Str) (fs : Fields P)
inductive Methods (P : Type) where
  | nil
  | cons (name : Str) (sig : Sig P) (ms : Methods P)
inductive Terms (P : Type) where
  | nil
  | cons (tilde : Bool) (t : TExpr P) (ts : Terms P)
end

/-- `Universe` (go/types): the predeclared names. -/
def predeclared : List Str :=
  [go!"bool", go!"int", go!"int8", go!"int16", go!"int32", go!"int64", go!"uint", go!"uint8", go!"uint16", go!"uint32", go!"uint64",
   go!"uintptr", go!"float32", go!"float64", go!"complex64", go!"complex128", go!"string", go!"byte", go!"rune", go!"error", go!"any",
   go!"comparable", go!"true", go!"false", go!"iota", go!"nil", go!"append", go!"cap", go!"clear", go!"close", go!"complex", go!"copy",
   go!"delete", go!"imag", go!"len", go!"make", go!"max", go!"min", go!"new", go!"panic", go!"print", go!"println", go!"real", go!"recover"]

section
variable {P : Type}

/-- typestring.go `typeName` with `packagePrefix`. -/
def typeName (qf : P → Str) (pkg : Option P) (name : Str) : Str :=
  match pkg with
  | none => name
  | some p => if qf p = [] then name else qf p ++ '.' :: name

/-- typestring.go, case `*TypeParam`. -/
def tparamText (name : Str) : Str := if name ∈ predeclared then name ++ go!"/* type parameter */" else name

/-- typestring.go, case `*Chan`: does the element need parentheses? -/
def chanParens : Dir → TExpr P → Bool
  | .both, .chan .recv _ => true
  | _, _ => false

def chanText : Dir → Str
  | .both => go!"chan "
  | .send => go!"chan<- "
  | .recv => go!"<-chan "

def noMethods : Methods P → Bool
  | .nil => true
  | .cons _ _ _ => false

mutual
/-- typestring.go `typ`: the text of a type; `quote` is `strconv.Quote`. -/
def render (quote : Str → Str) (qf : P → Str) : TExpr P → Str
  | .ref pkg name .nil => typeName qf pkg name
  | .ref pkg name (.cons t ts) => typeName qf pkg name ++ '[' :: (render quote qf t ++ renderRest quote qf ts ++ [']'])
  | .tparam name => tparamText name
  | .array n e => '[' :: (Str.natDigits n ++ ']' :: render quote qf e)
  | .slice e => '[' :: ']' :: render quote qf e
  | .ptr e => '*' :: render quote qf e
  | .map k e => go!"map[" ++ (render quote qf k ++ ']' :: render quote qf e)
  | .chan d e => chanText d ++ (if chanParens d e then '(' :: (render quote qf e ++ [')']) else render quote qf e)
  | .func g => go!"func" ++ renderSig quote qf g
  | .struct fs => go!"struct{" ++ (renderFields quote qf true fs ++ ['}'])
  | .iface ms es => go!"interface{" ++ (renderMethods quote qf true ms ++ (renderEmbedded quote qf (noMethods ms) es ++ ['}']))
  | .union ts => renderTerms quote qf true ts
/-- typestring.go `signature`. -/
def renderSig (quote : Str → Str) (qf : P → Str) : Sig P → Str
  | .mk ps v rs => '(' :: (renderParams quote qf true v ps ++ ')' :: renderResults quote qf rs)
/-- typestring.go `signature`: the results. -/
def renderResults (quote : Str → Str) (qf : P → Str) : Params P → Str
  | .nil => []
  | .cons n t .nil => if n = [] then ' ' :: render quote qf t else ' ' :: '(' :: (n ++ ' ' :: (render quote qf t ++ [')']))
  | .cons n t (.cons n' t' rs) =>
    ' ' :: '(' :: ((if n = [] then [] else n ++ go!" ") ++ (render quote qf t ++ (renderParams quote qf false false (.cons n' t' rs) ++ [')'])))
/-- typestring.go `typeList`: the elements after the first. -/
def renderRest (quote : Str → Str) (qf : P → Str) : TList P → Str
  | .nil => []
  | .cons t ts => go!", " ++ (render quote qf t ++ renderRest quote qf ts)
/-- typestring.go `tuple`, without the parentheses; `first`: no separator before the next element; `v`: the last one is variadic. -/
def renderParams (quote : Str → Str) (qf : P → Str) (first v : Bool) : Params P → Str
  | .nil => []
  | .cons n t .nil =>
    (if first then [] else go!", ") ++ ((if n = [] then [] else n ++ go!" ") ++
      (if v then (match t with | .slice e => go!"..." ++ render quote qf e | t => render quote qf t) else render quote qf t))
  | .cons n t (.cons n' t' ps) =>
    (if first then [] else go!", ") ++ ((if n = [] then [] else n ++ go!" ") ++ (render quote qf t ++ renderParams quote qf false v (.cons n' t' ps)))
/-- typestring.go, case `*Struct`: the fields. -/
def renderFields (quote : Str → Str) (qf : P → Str) (first : Bool) : Fields P → Str
  | .nil => []
  | .cons n t tag fs =>
    (if first then [] else go!"; ") ++ ((match n with | none => [] | some n => n ++ go!" ") ++
      (render quote qf t ++ ((if tag = [] then [] else ' ' :: quote tag) ++ renderFields quote qf false fs)))
/-- typestring.go, case `*Interface`: the methods. -/
def renderMethods (quote : Str → Str) (qf : P → Str) (first : Bool) : Methods P → Str
  | .nil => []
  | .cons n g ms => (if first then [] else go!"; ") ++ (n ++ (renderSig quote qf g ++ renderMethods quote qf false ms))
/-- typestring.go, case `*Interface`: the embedded elements. -/
def renderEmbedded (quote : Str → Str) (qf : P → Str) (first : Bool) : TList P → Str
  | .nil => []
  | .cons t ts => (if first then [] else go!"; ") ++ (render quote qf t ++ renderEmbedded quote qf false ts)
/-- typestring.go, case `*Union`. -/
def renderTerms (quote : Str → Str) (qf : P → Str) (first : Bool) : Terms P → Str
  | .nil => []
  | .cons tilde t ts => (if first then [] else go!" | ") ++ ((if tilde then go!"~" else []) ++ (render quote qf t ++ renderTerms quote qf false ts))
end

end

/-- encoding/hex `EncodeToString`. -/
def hexDigit (n : Nat) : Char := if n < 10 then Char.ofNat (48 + n) else Char.ofNat (87 + n)
def hexEncode : List UInt8 → Str
  | [] => []
  | b :: bs => hexDigit (b.toNat / 16) :: hexDigit (b.toNat % 16) :: hexEncode bs

/-- visitors/anon_type_key.go:18-31 `anonTypeKey`: packages are their import paths; `typeOf` is `TypesInfo.TypeOf`, `sum` is sha256. -/
def anonTypeKey (quote : Str → Str) (sum : Str → List UInt8) (typeOf : Node → Option (TExpr Str)) (expr : Node) : Str :=
  match typeOf expr with
  | none => []
  | some t => go!"$anon_" ++ hexEncode ((sum (render quote id t)).take 8)

end Verif.Ts
