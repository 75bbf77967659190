import Verif.Spec.Text
import Verif.Spec.Signature
/-!
# Specification: objects all of whose texts are UTF-8

`tag` says which struct tags are meant, `pkg` which packages.
-/
namespace Verif.Spec
open Verif.Ts Verif.Sign

section
variable {P : Type} (tag : Str → Prop) (pkg : P → Prop)

mutual
/-- The names in a type are UTF-8, its tags and packages are as meant. -/
def TypeText : TExpr P → Prop
  | .ref p n args => (∀ q, p = some q → pkg q) ∧ Text n ∧ TypesText args
  | .tparam n => Text n
  | .array _ e => TypeText e
  | .slice e => TypeText e
  | .ptr e => TypeText e
  | .map k e => TypeText k ∧ TypeText e
  | .chan _ e => TypeText e
  | .func g => SigText g
  | .struct fs => FieldsText fs
  | .iface ms es => MethodsText ms ∧ TypesText es
  | .union ts => TermsText ts
def TypesText : TList P → Prop
  | .nil => True
  | .cons t ts => TypeText t ∧ TypesText ts
def SigText : Sig P → Prop
  | .mk ps _ rs => ParamsText ps ∧ ParamsText rs
def ParamsText : Params P → Prop
  | .nil => True
  | .cons n t ps => Text n ∧ TypeText t ∧ ParamsText ps
def FieldsText : Fields P → Prop
  | .nil => True
  | .cons n t g fs => (∀ m, n = some m → Text m) ∧ TypeText t ∧ tag g ∧ FieldsText fs
def MethodsText : Methods P → Prop
  | .nil => True
  | .cons n g ms => Text n ∧ SigText g ∧ MethodsText ms
def TermsText : Terms P → Prop
  | .nil => True
  | .cons _ t ts => TypeText t ∧ TermsText ts
end
end

/-- A package with a path and a name in UTF-8. -/
def PkgText (p : Pkg) : Prop := Text p.path ∧ Text p.name

/-- A type of the type checker; the tags are of no concern. -/
abbrev AnyTagText : TExpr Pkg → Prop := TypeText (fun _ => True) PkgText

def TParamsText (tps : TParams) : Prop := ∀ g ∈ tps, (∀ n ∈ g.1, Text n) ∧ AnyTagText g.2

def ReceiverText : Recv → Prop
  | .iface => True
  | .named _ p n tps => (∀ q, p = some q → PkgText q) ∧ Text n ∧ TParamsText tps
  | .typ t => AnyTagText t

def DeclText : TDecl → Prop
  | .basic => True
  | .tparam bound under => AnyTagText bound ∧ AnyTagText under
  | .defined tps under => TParamsText tps ∧ AnyTagText under
  | .alias tps rhs => TParamsText tps ∧ AnyTagText rhs
  | .oldAlias t under => AnyTagText t ∧ AnyTagText under

def ClsText : Cls → Prop
  | .pkgName imported => ∀ p, imported = some p → Text p
  | .typeName d => DeclText d
  | .const t val => AnyTagText t ∧ Text val
  | .var _ t => AnyTagText t
  | .func recv tps sig => (∀ r, recv = some r → ReceiverText r) ∧ TParamsText tps ∧ SigText (fun _ => True) PkgText sig
  | .label => True
  | .builtin => True
  | .nil => True

/-- An object whose name, package, type and value are written in UTF-8. -/
structure ViewText (v : View) : Prop where
  pkg : ∀ p, v.pkg = some p → PkgText p
  name : Text v.name
  cls : ClsText v.cls

/-- A field whose type contains only struct tags in UTF-8 (its own tag is not part of its type), and names that Go allows. -/
def FieldTagsText (own : List Str) (v : View) : Prop :=
  ∀ t, v.cls = .var true t → Ts.Spec.Identifier v.name ∧ Ts.Spec.WellFormed own (Sign.Spec.relabel (Sign.Spec.inPackage v.pkg) t) ∧
    TypeText Text PkgText t

end Verif.Spec
