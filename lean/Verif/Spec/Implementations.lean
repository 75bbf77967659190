import Verif.Model.Implementations
import Verif.Spec.Fingerprint
import Verif.Spec.Objects
/-!
# Specification: implementations
-/
namespace Verif.Spec
open Verif.Impl

/-- Go specification, "Implementing an interface": the type (`ptr = false`) or the pointer to it (`ptr = true`) has all
methods of the interface with identical signatures, and is in the interface's type set. -/
def Implements (E : Ext) (ptr : Bool) (t i : NamedT) : Prop :=
  E.inTypeSet ptr t.decl i.decl = true ∧
  ∀ m ∈ i.methods, ∃ n ∈ t.methods, (ptr = true ∨ n.inValue = true) ∧ n.id = m.id ∧ Fp.Spec.Identical n.sig m.sig

/-- The type or the pointer to it. -/
def ImplementsSome (E : Ext) (t i : NamedT) : Prop := Implements E false t i ∨ Implements E true t i

/-- The package-level types of a list of packages that the index describes, with the description and the package path: for
a package with syntax the entry of its table at the type's name, for a package known by export data only the
symbol composed for the exported type. -/
inductive Described (scopes : Scopes) (g : Global) (project : Bool) (ps : List Pkg) : NamedT → SymRef → Str → Prop
  | source {p ds d named r i} : p ∈ ps → p.name ≠ go!"builtin" → p.defs = some ds → some d ∈ ds →
      (p.scope.isSome → d.pkgLevel = true) → d.named = some named → g.symbols.lookup p.path = some r →
      r.table.get d.obj.pos = some i →
      Described scopes g project ps named ⟨.entry p.path d.obj.pos, i.symbol⟩ p.path
  | exported {p ds d named sym} : p ∈ ps → p.name ≠ go!"builtin" → p.defs = none → p.scope = some ds → some d ∈ ds →
      Spec.Exported d.obj.name → d.named = some named →
      (g.composer.compose scopes (some p.module) (some (.plain d.obj))).2 = sym → sym ≠ [] →
      Described scopes g project ps named ⟨.type project sym, sym⟩ p.path

/-- The description of a method of the type with symbol `tsym`: the entry of its package's table if it was collected,
otherwise one made for this type and method. -/
def MethodDescribed (scopes : Scopes) (g : Global) (project : Bool) (tsym : Str) (m : Method) (s : SymRef) : Prop :=
  ∃ i, (g.getSymbolOfObject scopes m.obj).2 = .info i ∧ s.sym = i.symbol ∧
    ((∃ c, tableOf g m.obj = some c ∧ s.ref = .entry c m.obj.self.pos) ∨
     (tableOf g m.obj = none ∧ s.ref = .method project tsym m.id))

/-- The method sets that occur in a list of packages: of the types in `Defs` and in the package scope. -/
def methodSets (ps : List Pkg) : List NamedT :=
  ps.flatMap (fun p => ((p.defs.getD []) ++ (p.scope.getD [])).filterMap (fun d => d.bind (·.named)))

/-- All objects that the pass can ask for. -/
def askedObjs (ps : List Pkg) : List Obj :=
  (methodSets ps).flatMap (fun n => n.methods.map (·.obj)) ++
  ps.flatMap (fun p => (p.scope.getD []).filterMap (fun d => d.map (fun d => Obj.plain d.obj)))

/-- What the type checker and the earlier phases guarantee: pointer identity is identity, objects are well formed, a method
set has one method per identifier and every method is a function object, package scopes hold the package's own types,
the symbol table was set up with the packages' modules, and nothing has been asked yet. -/
structure Consistent (g : Global) (all : List Pkg) : Prop where
  fresh : g.composer.compositions = [] ∧ g.skipped = []
  coherent : CoherentObjs (askedObjs all)
  wellFormed : ∀ o ∈ askedObjs all, WellFormedObj o
  funcs : ∀ n ∈ methodSets all, ∀ m ∈ n.methods, ∃ s, m.obj.self.cls = .func s
  oneMethod : ∀ n ∈ methodSets all, (n.methods.map Method.id).Nodup
  scopeTypes : ∀ p ∈ all, ∀ ds, p.scope = some ds → ∀ d, some d ∈ ds → d.obj.pkg = some p.path
  modules : ∀ p ∈ all, ∀ r, g.symbols.lookup p.path = some r → r.module = p.module
  registered : ∀ p ∈ all, ∃ r, g.symbols.lookup p.path = some r

/-- No two described types share a symbol. -/
def SymbolsDistinct (scopes : Scopes) (g : Global) (project : Bool) (ps : List Pkg) : Prop :=
  ∀ t s p t' s' p', Described scopes g project ps t s p → Described scopes g project ps t' s' p' → s.sym = s'.sym →
    t = t' ∧ s = s' ∧ p = p'

/-- The packages of the project (`true`) or the dependencies (`false`). -/
def side (pkgs all : List Pkg) : Bool → List Pkg
  | true => pkgs
  | false => remotePackages pkgs all

/-- A description belongs to one thing: described types with the same description are the same type, and no description
of a type is also that of a method. -/
structure DescriptionsDistinct (scopes : Scopes) (g : Global) (pkgs all : List Pkg) : Prop where
  types : ∀ b t s p b' t' s' p', Described scopes g b (side pkgs all b) t s p →
    Described scopes g b' (side pkgs all b') t' s' p' → s.ref = s'.ref → b = b' ∧ t = t' ∧ s = s' ∧ p = p'
  methods : ∀ b t s p b' t' s' p' n sn, Described scopes g b (side pkgs all b) t s p →
    Described scopes g b' (side pkgs all b') t' s' p' → n ∈ t'.methods →
    MethodDescribed scopes g b' s'.sym n sn → s.ref ≠ sn.ref

/-- All methods of the interface are exported. -/
def AllExported (i : NamedT) : Prop := ∀ m ∈ i.methods, Spec.Exported m.obj.self.name

/-- The iteration orders of one pass: every type once, for every type every interface once, and so for methods. -/
def Enumerates (cs ifs : List (Str × ImplDef)) (vs : List TypeVisit) : Prop :=
  (vs.map (·.ty)).Perm (cs.map (·.2)) ∧
  ∀ v ∈ vs, (v.ifaces.map (·.iface)).Perm (ifs.map (·.2)) ∧ v.canon.Perm v.ty.methods ∧
    ∀ w ∈ v.ifaces, w.methods.Perm w.iface.methods

/-- Orders that Go's map iteration can choose. -/
def ValidOrders (orders : State → State → Orders) : Prop :=
  ∀ loc rem, Enumerates loc.concretes loc.ifaces (orders loc rem).localLocal ∧
    Enumerates loc.concretes rem.ifaces (orders loc rem).localRemote ∧
    Enumerates rem.concretes loc.ifaces (orders loc rem).remoteLocal ∧
    (orders loc rem).external.Perm (rem.concretes.map (·.2))

/-- Two listings of the same packages: the packages and the entries of each `Defs` map may come in a different order. -/
inductive SamePackage : Pkg → Pkg → Prop
  | mk {path name module scope} {ds ds' : List (Option TypeDef)} : ds.Perm ds' →
      SamePackage ⟨path, name, module, some ds, scope⟩ ⟨path, name, module, some ds', scope⟩
  | refl {p} : SamePackage p p

def SameListing (a b : List Pkg) : Prop :=
  (∀ p ∈ a, ∃ q ∈ b, SamePackage p q) ∧ (∀ q ∈ b, ∃ p ∈ a, SamePackage p q)

end Verif.Spec
