import Verif.Spec.Unicode
/-!
# Specification: UTF-8 texts
-/
namespace Verif.Spec

/-- A sequence of bytes that is UTF-8: the encodings of some code points, one after the other. -/
def Text (s : Str) : Prop := ∃ rs : List Nat, (∀ r ∈ rs, Scalar r) ∧ s = rs.flatMap utf8

end Verif.Spec
