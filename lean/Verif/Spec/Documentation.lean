import Verif.Model.Ast
/-!
# Specification: documentation texts
-/
namespace Verif.Spec

/-- A text has a line that starts with `w`: the word occurs at the beginning or right after a line break. -/
def HasLineStarting (w text : Str) : Prop :=
  ∃ a b, text = a ++ w ++ b ∧ (a = [] ∨ ∃ a', a = a' ++ ['\n'])

/-- The body of a double-quoted Go literal: escape sequences `\\c` and characters other than `"` and `\\`. -/
inductive QuotedBody : Str → Prop
  | nil : QuotedBody []
  | plain {c r} : c ≠ '"' → c ≠ '\\' → QuotedBody r → QuotedBody (c :: r)
  | escape {c r} : QuotedBody r → QuotedBody ('\\' :: c :: r)

/-- A piece of text: either verbatim (without `"`) or a double-quoted literal. -/
inductive Piece where
  | text (s : Str)
  | lit (body : Str)

namespace Piece

/-- How the piece is written in the input. -/
def source : Piece → Str
  | .text s => s
  | .lit b => '"' :: (b ++ ['"'])

/-- How it must be written in the output: literals that Go can unquote as their value in back-ticks. -/
def target (unquote : Str → Option Str) : Piece → Str
  | .text s => s
  | .lit b => match unquote ('"' :: (b ++ ['"'])) with
    | some v => '`' :: (v ++ ['`'])
    | none => '"' :: (b ++ ['"'])

def Ok : Piece → Prop
  | .text s => '"' ∉ s
  | .lit b => QuotedBody b

end Piece

/-- The own text and the group text, leaving out empty texts and a repetition. -/
def docList (own group : Str) : List Str :=
  (if own = [] then [] else [own]) ++ (if group = [] ∨ group = own then [] else [group])

/-- The identifiers a type, variable or constant spec declares. -/
def specNames : Node → List Ident
  | .typeSpec n _ _ _ => [n]
  | .valueSpec _ ns _ _ _ _ => ns
  | _ => []

end Verif.Spec
