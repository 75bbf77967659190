import Verif.Model.Lookup
/-!
# internal/implementations/fingerprint/fingerprint.go

Types (go/types, dependency) are terms: a reference to a declared type is a leaf, so terms are finite.
-/
namespace Verif.Fp
open Verif

/-- `types.BasicKind` (dependency): the typed kinds, unsafe.Pointer, the invalid type and the untyped kinds (as one). -/
inductive Basic where
  | bool | int | int8 | int16 | int32 | int64 | uint | uint8 | uint16 | uint32 | uint64 | uintptr
  | float32 | float64 | complex64 | complex128 | string | unsafePointer | invalid | untyped
  deriving DecidableEq, Repr

/-- The data of a struct field besides its type: name, path of the package that declares it, embedded?, tag. -/
structure FieldHdr where
  name : Str
  pkg : Str
  embedded : Bool
  tag : Str
  deriving DecidableEq, Repr

mutual
/-- `types.Type` (dependency), the cases of fingerprint.go:98-230.  `named` refers to a declaration by its identity
`decl`; `pkg = none` is a nil package, and an empty list of type arguments is a nil `TypeArgs()`.  The parameter and
result tuples of a signature are lists.  An interface is the list of its methods (identifier and signature).  A type
parameter has an identity and an index.  `union` stands for every type of the default case. -/
inductive Ty where
  | alias (rhs : Ty)
  | named (decl : Nat) (pkg : Option Str) (name : Str) (targs : Tys)
  | array (len : Nat) (elem : Ty)
  | slice (elem : Ty)
  | ptr (elem : Ty)
  | map (key elem : Ty)
  | chan (dir : Nat) (elem : Ty)
  | basic (b : Basic)
  | sig (params : Tys) (variadic : Bool) (results : Tys)
  | struct (fields : Fields)
  | iface (methods : Methods)
  | typeParam (id index : Nat)
  | union
inductive Tys where
  | nil
  | cons (t : Ty) (ts : Tys)
inductive Fields where
  | nil
  | cons (h : FieldHdr) (t : Ty) (fs : Fields)
inductive Methods where
  | nil
  | cons (id : Str) (sig : Ty) (ms : Methods)
end

/-- fmt verb `%q` (strconv.Quote), `strconv.Unquote` and the character classes of text/scanner (dependencies). -/
structure Lex where
  quote : Str → Str
  unquote : Str → Option Str
  /-- `unicode.IsLetter` or `_` -/
  letter : Char → Bool
  /-- `unicode.IsDigit` -/
  digit : Char → Bool

/-- fingerprint.go:158-175: the text of a basic type; none is the panic for untyped types. -/
def Basic.text : Basic → Option Str
  | .bool => some go!"bool" | .int => some go!"int" | .int8 => some go!"int8" | .int16 => some go!"int16"
  | .int32 => some go!"rune" | .int64 => some go!"int64" | .uint => some go!"uint" | .uint8 => some go!"byte"
  | .uint16 => some go!"uint16" | .uint32 => some go!"uint32" | .uint64 => some go!"uint64"
  | .uintptr => some go!"uintptr" | .float32 => some go!"float32" | .float64 => some go!"float64"
  | .complex64 => some go!"complex64" | .complex128 => some go!"complex128" | .string => some go!"string"
  | .unsafePointer => some go!"(qual \"unsafe\" Pointer)"
  | .invalid => some go!"invalid type"
  | .untyped => none

/-- fingerprint.go:107-114: the name of a declared type; none is the panic of fingerprint.go:111. -/
def printName (L : Lex) (pkg : Option Str) (name : Str) : Option Str :=
  match pkg with
  | some p => some (go!"(qual " ++ (L.quote p ++ ' ' :: (name ++ [')'])))
  | none => if name = go!"error" ∨ name = go!"comparable" then some name else none

/-- fingerprint.go:193-201: name, embedded?, tag of a field. -/
def printHdr (L : Lex) (h : FieldHdr) : Str :=
  (if isExported h.name then h.name else go!"(qual " ++ (L.quote h.pkg ++ ' ' :: (h.name ++ [')']))) ++
  ' ' :: ((if h.embedded then go!"true" else go!"false") ++ ' ' :: L.quote h.tag)

mutual

/-- fingerprint.go:93-236 `fingerprint`: the text; none is a panic. -/
def print (L : Lex) : Ty → Option Str
  | .alias t => print L t
  | .named _ pkg name .nil => printName L pkg name
  | .named _ pkg name (.cons t ts) =>
    (printName L pkg name).bind fun n => (printEach L (.cons t ts)).map fun as => go!"(inst " ++ (n ++ (as ++ [')']))
  | .array len elem => (print L elem).map fun e => go!"(array " ++ (Str.natDigits len ++ ' ' :: (e ++ [')']))
  | .slice elem => (print L elem).map fun e => go!"(slice " ++ (e ++ [')'])
  | .ptr elem => (print L elem).map fun e => go!"(ptr " ++ (e ++ [')'])
  | .map k e => (print L k).bind fun k => (print L e).map fun e => go!"(map " ++ (k ++ ' ' :: (e ++ [')']))
  | .chan dir elem => (print L elem).map fun e => go!"(chan " ++ (Str.natDigits dir ++ ' ' :: (e ++ [')']))
  | .basic b => b.text
  | .sig ps v rs => (printEach L ps).bind fun ps => (printEach L rs).map fun rs =>
    go!"(func (tuple" ++ (ps ++ ')' :: ((if v then go!" v" else []) ++ (go!" (tuple" ++ (rs ++ go!"))"))))
  | .struct fs => (printFields L fs).map fun fs => go!"(struct" ++ (fs ++ [')'])
  | .iface .nil => some go!"any"
  | .iface (.cons _ _ _) => some go!"(interface)"
  | .typeParam _ i => some (go!"(typeparam " ++ (Str.natDigits i ++ [')']))
  | .union => none

/-- fingerprint.go:115-121 and 150-156: a space and the text, for each type of a list. -/
def printEach (L : Lex) : Tys → Option Str
  | .nil => some []
  | .cons t ts => (print L t).bind fun t => (printEach L ts).map fun ts => ' ' :: (t ++ ts)

/-- fingerprint.go:191-203: the fields of a struct. -/
def printFields (L : Lex) : Fields → Option Str
  | .nil => some []
  | .cons h t fs => (print L t).bind fun t => (printFields L fs).map fun fs => ' ' :: (printHdr L h ++ ' ' :: (t ++ fs))

end

mutual

/-- fingerprint.go:95, 218, 225: the variable `tricky` after the traversal. -/
def tricky : Ty → Bool
  | .alias t => tricky t
  | .named _ _ _ targs => trickyEach targs
  | .array _ e => tricky e
  | .slice e => tricky e
  | .ptr e => tricky e
  | .map k e => tricky k || tricky e
  | .chan _ e => tricky e
  | .basic _ => false
  | .sig ps _ rs => trickyEach ps || trickyEach rs
  | .struct fs => trickyFields fs
  | .iface .nil => false
  | .iface (.cons _ _ _) => true
  | .typeParam _ _ => true
  | .union => false

/-- `tricky` over a list of types. -/
def trickyEach : Tys → Bool
  | .nil => false
  | .cons t ts => tricky t || trickyEach ts

/-- `tricky` over the fields of a struct. -/
def trickyFields : Fields → Bool
  | .nil => false
  | .cons _ t fs => tricky t || trickyFields fs

end

/-- fingerprint.go:40 `Encode`. -/
def encode (L : Lex) (t : Ty) : Option (Str × Bool) := (print L t).map fun s => (s, tricky t)

/-! ## Trees -/

/-- fingerprint.go:239-243 `sexpr`. -/
inductive Sexpr where
  | nil
  | str (s : Str)
  | int (n : Nat)
  | sym (s : Str)
  | cons (car cdr : Sexpr)
  deriving DecidableEq, Repr

/-- Tokens of text/scanner (dependency), as far as parseFingerprint distinguishes them.  `str` carries the token text
with its quotes. -/
inductive Token where
  | lparen | rparen | ident (s : Str) | int (s : Str) | str (raw : Str) | other
  deriving DecidableEq, Repr

/-- text/scanner (dependency): the longest prefix of characters with a property. -/
def takeWhile' (p : Char → Bool) : Str → Str × Str
  | [] => ([], [])
  | c :: r => if p c then let (a, b) := takeWhile' p r; (c :: a, b) else ([], c :: r)

/-- text/scanner `scanString` (dependency): up to the closing quote; none is the error "literal not terminated". -/
def scanStr : Str → Option (Str × Str)
  | [] => none
  | '\\' :: [] => none
  | '\\' :: c :: r => (scanStr r).map fun (a, b) => ('\\' :: c :: a, b)
  | '"' :: r => some (['"'], r)
  | '\n' :: _ => none
  | c :: r => (scanStr r).map fun (a, b) => (c :: a, b)

/-- text/scanner `Scan` (dependency) with the default mode, on input without comments, raw strings and character
literals: skips white space, then one token.  none is the panic of fingerprint.go:251. -/
def scan (L : Lex) : Str → Option (Token × Str)
  | [] => some (.other, [])
  | c :: r =>
    if c = ' ' ∨ c = '\t' ∨ c = '\n' ∨ c = '\r' then scan L r
    else if L.letter c then let (a, b) := takeWhile' (fun c => L.letter c || L.digit c) r; some (.ident (c :: a), b)
    else if c.isDigit then let (a, b) := takeWhile' Char.isDigit r; some (.int (c :: a), b)
    else if c = '"' then (scanStr r).map fun (a, b) => (.str ('"' :: a), b)
    else if c = '(' then some (.lparen, r)
    else if c = ')' then some (.rparen, r)
    else some (.other, r)

/-- `strconv.Atoi` on a token of digits (dependency). -/
def atoi (s : Str) : Nat := s.foldl (fun n c => n * 10 + (c.toNat - '0'.toNat)) 0

mutual

/-- fingerprint.go:262-301 `parse`: current token and remaining input; none is a panic.  The fuel bounds the recursion
depth. -/
def parseExpr (L : Lex) : Nat → Token × Str → Option (Sexpr × (Token × Str))
  | 0, _ => none
  | fuel + 1, (tok, rest) =>
    match tok with
    | .lparen => (scan L rest).bind (parseList L fuel)
    | .ident s => (scan L rest).map fun st => (.sym s, st)
    | .int s => (scan L rest).map fun st => (.int (atoi s), st)
    | .str raw => (scan L rest).bind fun st => (L.unquote raw).map fun s => (.str s, st)
    | .rparen => none
    | .other => none

/-- fingerprint.go:265-273: the loop over the elements of a list. -/
def parseList (L : Lex) : Nat → Token × Str → Option (Sexpr × (Token × Str))
  | 0, _ => none
  | fuel + 1, (tok, rest) =>
    match tok with
    | .rparen => (scan L rest).map fun st => (.nil, st)
    | _ => (parseExpr L fuel (tok, rest)).bind fun (x, st) => (parseList L fuel st).map fun (xs, st) => (.cons x xs, st)

end

/-- fingerprint.go:56-58 `Parse`, 249-304 `parseFingerprint`. Each step of the recursion consumes a token, so twice the length of
the text bounds it. -/
def parse (L : Lex) (fp : Str) : Option Sexpr :=
  (scan L fp).bind fun st => (parseExpr L (2 * fp.length + 2) st).map (·.1)

/-! ## Matching -/

/-- fingerprint.go:457-464 `typeParamIndex`: `none` is the panic of the type assertions, `some none` is -1. -/
def typeParamIndex : Sexpr → Option (Option Nat)
  | .cons (.sym s) cdr =>
    if s = go!"typeparam" then
      match cdr with
      | .cons (.int i) _ => some (some i)
      | _ => none
    else some none
  | _ => some none

/-- fingerprint.go:348-356 `maxTypeParam`, plus one; none is a panic. -/
def numTypeParams : Sexpr → Option Nat
  | .cons a b =>
    match typeParamIndex (.cons a b) with
    | none => none
    | some (some i) => some (i + 1)
    | some none => (numTypeParams a).bind fun m => (numTypeParams b).map fun n => max m n
  | _ => some 0

/-- fingerprint.go:358-368: binding cells are numbered; `xs` and `ys` say which cell each type parameter uses, and
`cells` is their content. -/
structure Bindings where
  xs : List Nat
  ys : List Nat
  cells : Nat → Option Sexpr

/-- fingerprint.go:374-382 `occurs`; none is an index out of range or a failed type assertion. -/
def occurs (b : Nat) (bindings : List Nat) : Sexpr → Option Bool
  | .cons p q =>
    match typeParamIndex (.cons p q) with
    | none => none
    | some (some j) => (bindings[j]?).map (fun c => decide (b = c))
    | some none => (occurs b bindings p).bind fun r => if r then some true else occurs b bindings q
  | _ => some false

/-- fingerprint.go:371-389 `bind`. -/
def bindCell (st : Bindings) (b : Nat) (s : Sexpr) (bindings : List Nat) : Option (Bindings × Bool) :=
  (occurs b bindings s).map fun r =>
    if r then (st, false) else ({ st with cells := fun c => if c = b then some s else st.cells c }, true)

/-- A cell holds the empty list or nothing: `*b == nil` in Go. -/
def Bindings.get (st : Bindings) (b : Nat) : Option Sexpr :=
  match st.cells b with
  | some .nil => none
  | o => o

/-- fingerprint.go:392-450 `uni`: outer none: fuel exhausted; `some none`: panic. -/
def uni : Nat → Bindings → Sexpr → Sexpr → Option (Option (Bindings × Bool))
  | 0, _, _, _ => none
  | fuel + 1, st, x, y =>
    match typeParamIndex x with
    | none => some none
    | some ix =>
      match ix.map (fun i => st.xs[i]?) with
      | some none => some none
      | bx =>
        match typeParamIndex y with
        | none => some none
        | some iy =>
          match iy.map (fun i => st.ys[i]?) with
          | some none => some none
          | by' =>
            match bx.join, by'.join with
            | some bx, some by' =>
              match st.get bx, st.get by' with
              | none, none => some (some ({ st with xs := st.xs.set (ix.getD 0) by' }, true))
              | none, some y => some (bindCell st bx y st.ys)
              | some x, none => some (bindCell st by' x st.xs)
              | some x, some y => uni fuel st x y
            | some bx, none =>
              match st.get bx with
              | none => some (bindCell st bx y st.ys)
              | some x => uni fuel st x y
            | none, some by' =>
              match st.get by' with
              | none => some (bindCell st by' x st.xs)
              | some y => uni fuel st x y
            | none, none =>
              match x, y with
              | .nil, .nil => some (some (st, true))
              | .str a, .str b => some (some (st, decide (a = b)))
              | .int a, .int b => some (some (st, decide (a = b)))
              | .sym a, .sym b => some (some (st, decide (a = b)))
              | .cons a c, .cons b d =>
                match uni fuel st a b with
                | none => none
                | some none => some none
                | some (some (st, false)) => some (some (st, false))
                | some (some (st, true)) =>
                  if c = .nil then some (some (st, decide (d = .nil)))
                  else if d = .nil then some (some (st, false))
                  else uni fuel st c d
              | _, _ => some (some (st, false))

/-- fingerprint.go:63-65 `Matches`, 344-453 `unify`. -/
def unify (fuel : Nat) (x y : Sexpr) : Option (Option Bool) :=
  match numTypeParams x, numTypeParams y with
  | some m, some n =>
    (uni fuel ⟨List.range m, (List.range n).map (· + m), fun _ => none⟩ x y).map (·.map (·.2))
  | _, _ => some none

end Verif.Fp
