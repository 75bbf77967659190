import Verif.Model.Str
/-! # Go maps with string keys, as association lists with at most one entry per key -/
namespace Verif

abbrev GoMap (β : Type) := List (Str × β)

namespace GoMap
/-- `m[k]`, none if the key is absent. -/
def get {β : Type} (m : GoMap β) (k : Str) : Option β := List.lookup k m

/-- `m[k] = v`. -/
def set {β : Type} (m : GoMap β) (k : Str) (v : β) : GoMap β := (k, v) :: m.filter (fun e => e.1 ≠ k)

/-- The keys. -/
def keys {β : Type} (m : GoMap β) : List Str := m.map (·.1)
end GoMap
end Verif
