import Verif.Model.Fingerprint
/-!
# go/types `Identical` (dependency), used by `types.Implements`
-/
namespace Verif.Fp
open Verif

/-- `types.Unalias` (dependency). -/
def unalias : Ty → Ty
  | .alias t => unalias t
  | t => t

/-- The comparison of struct fields in go/types `identical`. -/
def sameHdr (h k : FieldHdr) : Bool :=
  h.name = k.name && (isExported h.name || h.pkg = k.pkg) && (h.embedded == k.embedded) && h.tag = k.tag

mutual
/-- go/types `identical` (dependency) on the type terms of the fingerprint model.  (Recursive interfaces, which go/types
handles by a list of assumed pairs, are not among the terms; the methods of an interface are listed by identifier.) -/
def identical : Ty → Ty → Bool
  | .alias t, u => identical t u
  | .named d p n as, u => match unalias u with
    | .named d' p' n' bs => d = d' && p = p' && n = n' && identicalEach as bs
    | _ => false
  | .array l t, u => match unalias u with
    | .array l' u => l = l' && identical t u
    | _ => false
  | .slice t, u => match unalias u with
    | .slice u => identical t u
    | _ => false
  | .ptr t, u => match unalias u with
    | .ptr u => identical t u
    | _ => false
  | .map k t, u => match unalias u with
    | .map l u => identical k l && identical t u
    | _ => false
  | .chan d t, u => match unalias u with
    | .chan d' u => d = d' && identical t u
    | _ => false
  | .basic b, u => match unalias u with
    | .basic b' => b = b'
    | _ => false
  | .sig ps v rs, u => match unalias u with
    | .sig qs v' ss => (v == v') && identicalEach ps qs && identicalEach rs ss
    | _ => false
  | .struct fs, u => match unalias u with
    | .struct gs => identicalFields fs gs
    | _ => false
  | .iface ms, u => match unalias u with
    | .iface ns => identicalMethods ms ns
    | _ => false
  | .typeParam i n, u => match unalias u with
    | .typeParam j m => i = j && n = m
    | _ => false
  | .union, _ => false
termination_by structural t => t
def identicalEach : Tys → Tys → Bool
  | .nil, .nil => true
  | .cons t ts, .cons u us => identical t u && identicalEach ts us
  | _, _ => false
termination_by structural t => t
def identicalFields : Fields → Fields → Bool
  | .nil, .nil => true
  | .cons h t fs, .cons k u gs => sameHdr h k && identical t u && identicalFields fs gs
  | _, _ => false
termination_by structural t => t
def identicalMethods : Methods → Methods → Bool
  | .nil, .nil => true
  | .cons i t ms, .cons j u ns => i = j && identical t u && identicalMethods ms ns
  | _, _ => false
termination_by structural t => t
end

end Verif.Fp
