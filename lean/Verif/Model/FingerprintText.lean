import Verif.Model.Fingerprint
/-! # fingerprint.go:46-50, 306-339: the text of a tree -/
namespace Verif.Fp
open Verif

mutual
/-- fingerprint.go:308-339 `writeSexpr`. -/
def writeSexpr (L : Lex) : Sexpr → Str
  | .nil => go!"()"
  | .str s => L.quote s
  | .int n => Str.natDigits n
  | .sym s => s
  | .cons a d => '(' :: (writeSexpr L a ++ writeRest L d)

/-- fingerprint.go:320-335: the loop over the rest of a list.  (The `print` of a dotted list is the builtin function, which writes to standard error.) -/
def writeRest (L : Lex) : Sexpr → Str
  | .nil => go!")"
  | .cons a d => ' ' :: (writeSexpr L a ++ writeRest L d)
  | .str _ => go!" . )"
  | .int _ => go!" . )"
  | .sym _ => go!" . )"
end

/-- fingerprint.go:46-50 `Tree.String`. -/
def Sexpr.text (L : Lex) (x : Sexpr) : Str := writeSexpr L x

end Verif.Fp
