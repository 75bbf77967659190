import Verif.Model.Ast
/-!
# internal/document/document.go
-/
namespace Verif

/-- document.go:28-37 `IsDocDeprecated`. -/
def isDocDeprecated : List Str → Bool
  | [] => false
  | d :: ds =>
    if (Str.splitOn '\n' d).any (fun line => line.hasPrefix go!"Deprecated:") then true
    else isDocDeprecated ds

/-- The `parent` argument of `SetNewSymbolForPos`: the visitors pass a `*ast.GenDecl`, `*ast.Field` or
`*ast.FuncDecl`. -/
inductive Parent where
  | genDecl (specs : List Node) (doc : Str)
  | field (doc comment : Str)
  | funcDecl (doc : Str)

/-- document.go:154-156, 177-178: hover text of a function declaration, a declaration group or a field. -/
def Parent.ownText : Parent → Str
  | .genDecl _ doc => doc.trimSpace
  | .field doc comment => Str.trimSpace (doc ++ '\n' :: comment)
  | .funcDecl doc => doc.trimSpace

/-- document.go:180-195: the first spec of the group that declares this identifier, and its hover text
(document.go:158-176). -/
def hoverInSpecs (doc : Str) (ident : Ident) : List Node → Option Str
  | [] => none
  | .typeSpec name _ _ sdoc :: rest =>
    if name.uid = ident.uid then
      let d := sdoc.trimSpace
      some (if d = [] then doc.trimSpace else d)
    else hoverInSpecs doc ident rest
  | .valueSpec _ names _ _ sdoc comment :: rest =>
    if names.any (fun n => n.uid == ident.uid) then
      let d := Str.trimSpace (sdoc ++ '\n' :: comment)
      some (if d = [] then doc.trimSpace else d)
    else hoverInSpecs doc ident rest
  | _ :: rest => hoverInSpecs doc ident rest

/-- document.go:146-202 `extractHoverText(parent, ident)` for an identifier and a non-nil parent. -/
def extractHoverText (parent : Parent) (ident : Ident) : Str :=
  match parent with
  | .genDecl specs doc => (hoverInSpecs doc ident specs).getD parent.ownText
  | p => p.ownText

/-- document.go:125-133: the documentation list. -/
def documentationOf (parent : Parent) (ident : Ident) : List Str :=
  let hover := extractHoverText parent ident
  let documentation := if hover = [] then [] else [hover]
  match parent with
  | .genDecl _ doc =>
    let blockDoc := doc.trimSpace
    if blockDoc ≠ [] ∧ (documentation = [] ∨ documentation.head? ≠ some blockDoc)
    then documentation ++ [blockDoc] else documentation
  | _ => documentation

/-- document.go:102-144 `SetNewSymbolForPos` builds this entry (the identifier is never nil in the calls from
internal/visitors). -/
def newSymInfo (env : PkgEnv) (symbol : Str) (parent : Parent) (ident : Ident) : SymInfo :=
  let d := env.defs ident.uid
  { symbol := symbol
    kind := kindForObject (d.map (·.self))
    displayName := ident.name
    documentation := documentationOf parent ident
    signature := match d with
      | none => none
      | some o => if env.signature o = [] then none else some (env.signature o) }

/-- document.go:333-360 `quotedTagsToBacktick` needs `strconv.Unquote` (dependency), taken as a parameter.
`scanQuote` is the inner loop (document.go:340-357): it looks for the closing quote; the result is the text of
the quoted literal without the opening quote but with the closing one, and the rest. -/
def scanQuote : Str → Option (Str × Str)
  | [] => none
  | '\\' :: [] => none
  | '\\' :: c :: r => (scanQuote r).map fun (q, t) => ('\\' :: c :: q, t)
  | '"' :: r => some (['"'], r)
  | c :: r => (scanQuote r).map fun (q, t) => (c :: q, t)

theorem scanQuote_length (s q t : Str) (h : scanQuote s = some (q, t)) : t.length < s.length := by
  fun_induction scanQuote s generalizing q t <;> simp_all <;> grind

/-- document.go:333-360 `quotedTagsToBacktick`. An unterminated quote only drops the `"` itself: the inner loop
ends without writing anything and the outer loop continues with the next byte. -/
def quotedTagsToBacktick (unquote : Str → Option Str) : Str → Str
  | [] => []
  | c :: r =>
    if c ≠ '"' then c :: quotedTagsToBacktick unquote r
    else
      match _h : scanQuote r with
      | none => quotedTagsToBacktick unquote r
      | some (q, t) =>
        (match unquote ('"' :: q) with
         | some u => '`' :: (u ++ ['`'])
         | none => '"' :: q) ++ quotedTagsToBacktick unquote t
termination_by s => s.length
decreasing_by
  · simp
  · simp
  · have := scanQuote_length _ _ _ _h; simp; omega

end Verif
