import Verif.Model.Signature
import Verif.Spec.TypeText
/-!
# What a signature text is meant to tell

An entity *as it is written* in a piece of source: its kind, its name and its type, where packages are replaced by the word that stands for them
(none: nothing is written).  Nothing here refers to how a text is put together.
-/
namespace Verif.Sign.Spec
open Ts Ts.Spec

mutual
/-- The type with every package replaced by the word `f` gives it. -/
def relabel (f : Pkg → Option Str) : TExpr Pkg → TExpr Str
  | .ref pkg n args => .ref (pkg.bind f) n (relabelL f args)
  | .tparam n => .tparam n
  | .array l e => .array l (relabel f e)
  | .slice e => .slice (relabel f e)
  | .ptr e => .ptr (relabel f e)
  | .map k e => .map (relabel f k) (relabel f e)
  | .chan d e => .chan d (relabel f e)
  | .func g => .func (relabelS f g)
  | .struct fs => .struct (relabelF f fs)
  | .iface ms es => .iface (relabelM f ms) (relabelL f es)
  | .union ts => .union (relabelT f ts)
def relabelL (f : Pkg → Option Str) : TList Pkg → TList Str
  | .nil => .nil
  | .cons t ts => .cons (relabel f t) (relabelL f ts)
def relabelS (f : Pkg → Option Str) : Sig Pkg → Sig Str
  | .mk ps v rs => .mk (relabelP f ps) v (relabelP f rs)
def relabelP (f : Pkg → Option Str) : Params Pkg → Params Str
  | .nil => .nil
  | .cons n t ps => .cons n (relabel f t) (relabelP f ps)
def relabelF (f : Pkg → Option Str) : Fields Pkg → Fields Str
  | .nil => .nil
  | .cons n t tag fs => .cons n (relabel f t) tag (relabelF f fs)
def relabelM (f : Pkg → Option Str) : Methods Pkg → Methods Str
  | .nil => .nil
  | .cons n g ms => .cons n (relabelS f g) (relabelM f ms)
def relabelT (f : Pkg → Option Str) : Terms Pkg → Terms Str
  | .nil => .nil
  | .cons tilde t ts => .cons tilde (relabel f t) (relabelT f ts)
end

/-- Inside package `own`, types of `own` are written without package, others with the name of their package (should it have one). -/
def inPackage (own : Option Pkg) (p : Pkg) : Option Str := if own = some p ∨ p.name = [] then none else some p.name

/-- Local descriptions never name a package. -/
def bare (_ : Pkg) : Option Str := none

/-- Type parameters as written. -/
abbrev WTParams := List (List Str × TExpr Str)

def writtenTParams (f : Pkg → Option Str) (tps : TParams) : WTParams := tps.map (fun g => (g.1, relabel f g.2))

/-- The receiver as written: an interface literal, or a (pointer to a) declared type with its type parameters. -/
inductive WRecv where
  | iface
  | named (ptr : Bool) (pkg : Option Str) (name : Str) (tparams : WTParams)

/-- A variable, field, constant, function (method), label, type parameter or declared type as written. -/
inductive Entity where
  | variable (name : Str) (t : TExpr Str)
  | field (name : Str) (t : TExpr Str)
  | constant (name : Str) (t : TExpr Str) (val : Str)
  | function (recv : Option WRecv) (name : Str) (tparams : WTParams) (sig : Sig Str)
  | label (name : Str)
  | typeParameter (name : Str) (bound : TExpr Str)
  | definition (name : Str) (tparams : WTParams) (under : TExpr Str)
  | alias (name : Str) (tparams : WTParams) (rhs : TExpr Str)

/-- Descriptions of local constants do not give the value. -/
def Entity.withoutValue : Entity → Entity
  | .constant n t _ => .constant n t []
  | e => e

/-- The receiver; none for an instance, which no definition has. -/
def writtenRecv (f : Pkg → Option Str) : Recv → Option WRecv
  | .iface => some .iface
  | .named ptr pkg name tps => some (.named ptr (pkg.bind f) name (writtenTParams f tps))
  | .typ _ => none

/-- `Describes f v e`: `e` is the object `v` as written with the package words `f`. -/
inductive Describes (f : Pkg → Option Str) : View → Entity → Prop
  | variable {v : View} {t : TExpr Pkg} : v.cls = .var false t → Describes f v (.variable v.name (relabel f t))
  | field {v : View} {t : TExpr Pkg} : v.cls = .var true t → Describes f v (.field v.name (relabel f t))
  | constant {v : View} {t : TExpr Pkg} {val : Str} : v.cls = .const t val → Describes f v (.constant v.name (relabel f t) val)
  | function {v : View} {tps : TParams} {sig : Sig Pkg} : v.cls = .func none tps sig →
      Describes f v (.function none v.name (writtenTParams f tps) (relabelS f sig))
  | method {v : View} {r : Recv} {w : WRecv} {tps : TParams} {sig : Sig Pkg} : v.cls = .func (some r) tps sig → writtenRecv f r = some w →
      Describes f v (.function (some w) v.name (writtenTParams f tps) (relabelS f sig))
  | label {v : View} : v.cls = .label → Describes f v (.label v.name)
  | typeParameter {v : View} {bound under : TExpr Pkg} : v.cls = .typeName (.tparam bound under) →
      Describes f v (.typeParameter v.name (relabel f bound))
  | definition {v : View} {tps : TParams} {under : TExpr Pkg} : v.cls = .typeName (.defined tps under) →
      Describes f v (.definition v.name (writtenTParams f tps) (relabel f under))
  | alias {v : View} {tps : TParams} {rhs : TExpr Pkg} : v.cls = .typeName (.alias tps rhs) →
      Describes f v (.alias v.name (writtenTParams f tps) (relabel f rhs))

/-- Type parameters as Go has them: at least one name for every constraint; the names are not those of declared types. -/
def WellFormedTParams (own : List Str) (tps : WTParams) : Prop :=
  ∀ g ∈ tps, g.1 ≠ [] ∧ (∀ n ∈ g.1, Identifier n) ∧ (WellFormed own g.2 ∨ WellFormedU own g.2)

def WellFormedRecv (own : List Str) : WRecv → Prop
  | .iface => True
  | .named _ pkg name tps => WellFormed own (.ref pkg name .nil) ∧ WellFormedTParams own tps

mutual
/-- The struct tags that occur in a type. -/
def tags : TExpr Str → List Str
  | .ref _ _ args => tagsL args
  | .tparam _ => []
  | .array _ e => tags e
  | .slice e => tags e
  | .ptr e => tags e
  | .map k e => tags k ++ tags e
  | .chan _ e => tags e
  | .func g => tagsS g
  | .struct fs => tagsF fs
  | .iface ms es => tagsM ms ++ tagsL es
  | .union ts => tagsT ts
def tagsL : TList Str → List Str
  | .nil => []
  | .cons t ts => tags t ++ tagsL ts
def tagsS : Sig Str → List Str
  | .mk ps _ rs => tagsP ps ++ tagsP rs
def tagsP : Params Str → List Str
  | .nil => []
  | .cons _ t ps => tags t ++ tagsP ps
def tagsF : Fields Str → List Str
  | .nil => []
  | .cons _ t tag fs => tag :: (tags t ++ tagsF fs)
def tagsM : Methods Str → List Str
  | .nil => []
  | .cons _ g ms => tagsS g ++ tagsM ms
def tagsT : Terms Str → List Str
  | .nil => []
  | .cons _ t ts => tags t ++ tagsT ts
end

/-- No struct tag in the type contains a back-tick. -/
def PlainTags (t : TExpr Str) : Prop := ∀ tag ∈ tags t, '`' ∉ tag

/-- Entities as Go's type checker delivers them; `own`: names of types that are written without package. -/
def WellFormedEntity (own : List Str) : Entity → Prop
  | .variable n t => Identifier n ∧ WellFormed own t
  | .field n t => Identifier n ∧ WellFormed own t
  | .constant n t _ => Identifier n ∧ WellFormed own t
  | .function recv n tps sig => (∀ r, recv = some r → WellFormedRecv own r) ∧ Identifier n ∧ WellFormedTParams own tps ∧ WellFormedS own sig
  | .label n => Identifier n
  | .typeParameter n bound => Identifier n ∧ (WellFormed own bound ∨ WellFormedU own bound)
  | .definition n tps under => Identifier n ∧ WellFormedTParams own tps ∧ WellFormed own under
  | .alias n tps rhs => Identifier n ∧ WellFormedTParams own tps ∧ WellFormed own rhs

/-- A struct or interface type that is written out. -/
def literal : TExpr Str → Bool
  | .struct _ => true
  | .iface _ _ => true
  | _ => false

/-- What the description of a definition shows: the type parameters of a defined type are left out. -/
def Entity.shown : Entity → Entity
  | .definition n _ t => .definition n [] t
  | e => e

/-- Entities whose description is written on one line without a formatter: everything but type parameters, generic aliases and types
defined as struct or interface. -/
def OneLine : Entity → Prop
  | .typeParameter _ _ => False
  | .definition _ _ t => literal t = false
  | .alias _ tps t => tps = [] ∧ literal t = false
  | .field _ t => PlainTags t
  | _ => True

/-- Every tab becomes four spaces. -/
def spaces (s : Str) : Str := s.flatMap (fun c => if c = '\t' then [' ', ' ', ' ', ' '] else [c])

end Verif.Sign.Spec
