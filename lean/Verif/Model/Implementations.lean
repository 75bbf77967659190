import Verif.Model.Identical
import Verif.Model.Sort
/-!
# internal/implementations/implementations.go and extractor.go

Symbol descriptions are shared by pointer: the relationships the pass adds are visible in every place that holds the
pointer.  A pointer is a `Ref`, and the relationship lists live in a heap `Ref → List Str`.  Iteration over a Go map is
iteration over a list that the caller may choose (see `TypeVisit`); the theorems quantify over all choices.
-/
namespace Verif.Impl
open Verif

/-- A selection of `typeutil.IntuitiveMethodSet` (dependency): the method object, its signature, and whether it is in the
method set of the type itself (and not only of the pointer to it). -/
structure Method where
  obj : Obj
  sig : Fp.Ty
  inValue : Bool

/-- `method.Obj().Id()`, implementations.go:42, extractor.go:133. -/
def Method.id (m : Method) : Str := m.obj.self.objId

/-- `m.Obj().Exported()`, implementations.go:55. -/
def Method.exported (m : Method) : Bool := isExported m.obj.self.name

/-- A `*types.Named` as far as it is used here: its identity, whether its underlying type is an interface, and its
intuitive method set. -/
structure NamedT where
  decl : Nat
  isIface : Bool
  methods : List Method

/-- Dependencies: the text functions of the fingerprint package, `crc32.ChecksumIEEE`, and whether the
type `decl` (or the pointer to it) is in the type set that an interface describes by unions and `comparable`. -/
structure Ext where
  lex : Fp.Lex
  crc : Str → BitVec 32
  inTypeSet : Bool → Nat → Nat → Bool

/-- implementations.go:47: the bit a method is mapped to. -/
def bitIndex (sum : BitVec 32) : Nat := (((sum >>> 24) ^^^ (sum >>> 16) ^^^ (sum >>> 8) ^^^ sum) &&& 0x3f#32).toNat

/-- implementations.go:37-50 `methodMask`; none is a panic of `fingerprint.Encode`. -/
def methodMask (E : Ext) : List Method → Option (BitVec 64)
  | [] => some 0
  | m :: ms => do
    let (fp, _) ← Fp.encode E.lex m.sig
    let rest ← methodMask E ms
    return (1#64 <<< bitIndex (E.crc (m.id ++ fp))) ||| rest

/-- implementations.go:53-60 `hasUnexportedMethods`. -/
def hasUnexportedMethods : List Method → Bool
  | [] => false
  | m :: ms => if m.exported then hasUnexportedMethods ms else true

/-- A `*scip.SymbolInformation`: an entry of a package's table (`lookup.Package.fields`), or one allocated during the
pass, for a type (extractor.go:107) or for a method (lookup.go:183).  The ones allocated are named by what they are allocated for:
the pass over project or dependency packages, the type's symbol, and the method.  Two allocations with the same name are
never both in use, because the maps of extractor.go keep one entry per symbol and one per method. -/
inductive Ref where
  | entry (pkg : Str) (pos : Nat)
  | type (project : Bool) (sym : Str)
  | method (project : Bool) (sym id : Str)
  deriving DecidableEq, Repr

/-- The field `Symbol` of a description together with the pointer. -/
structure SymRef where
  ref : Ref
  sym : Str
  deriving DecidableEq, Repr

/-- implementations.go:19-29 `ImplDef`. -/
structure ImplDef where
  symbol : SymRef
  named : NamedT
  methods : List (Str × SymRef)
  mask : BitVec 64
  methodCount : Nat
  hasUnexported : Bool
  pkgPath : Str

/-- Assignment to a Go map. -/
def put {β : Type} (k : Str) (v : β) (m : List (Str × β)) : List (Str × β) := (k, v) :: m.filter (fun e => e.1 ≠ k)

/-- The package whose table the answer of `GetSymbolOfObject` is an entry of, if it is one (lookup.go:174-179). -/
def tableOf (g : Global) (o : Obj) : Option Str :=
  match o.self.pkg with
  | none => none
  | some path => (testPackageCombinations path).find? (fun c => (g.getSymbolInformation c o.self.pos).isSome)

/-- The pointer that `GetSymbolOfObject` returns for a method, lookup.go:174-185. -/
def methodRef (project : Bool) (sym : Str) (g : Global) (m : Method) : Ref :=
  match tableOf g m.obj with
  | some c => .entry c m.obj.self.pos
  | none => .method project sym m.id

/-- extractor.go:122-134: the descriptions of the methods; none is a panic. -/
def methodSymbols (scopes : Scopes) (project : Bool) (sym : Str) :
    Global → List Method → List (Str × SymRef) → Option (Global × List (Str × SymRef))
  | g, [], acc => some (g, acc)
  | g, m :: ms, acc =>
    match g.getSymbolOfObject scopes m.obj with
    | (_, .panic) => none
    | (g', .error) => methodSymbols scopes project sym g' ms acc
    | (g', .skip) => methodSymbols scopes project sym g' ms acc
    | (g', .info i) =>
      methodSymbols scopes project sym g' ms (put m.id ⟨methodRef project sym g m, i.symbol⟩ acc)

/-- The variables of `Extract`: the global symbol table and the two result maps. -/
structure State where
  g : Global
  ifaces : List (Str × ImplDef)
  concretes : List (Str × ImplDef)

/-- extractor.go:111-150 `classify`. -/
def classify (E : Ext) (scopes : Scopes) (project : Bool) (named : NamedT) (sym : SymRef) (pkgPath : Str) (s : State) :
    Option State :=
  if named.methods = [] then some s
  else do
    let (g, methods) ← methodSymbols scopes project sym.sym s.g named.methods []
    let mask ← methodMask E named.methods
    let impl : ImplDef :=
      { symbol := sym, named := named, methods := methods, mask := mask, methodCount := named.methods.length
        hasUnexported := hasUnexportedMethods named.methods, pkgPath := pkgPath }
    if named.isIface then return { s with g := g, ifaces := put sym.sym impl s.ifaces }
    else return { s with g := g, concretes := put sym.sym impl s.concretes }

/-- A `*types.TypeName`: the object, whether its parent is the package scope, and its type if that is a `*types.Named`. -/
structure TypeDef where
  obj : ObjData
  pkgLevel : Bool
  named : Option NamedT

/-- What the extractor reads of a `*packages.Package`.  `defs` are the entries of `TypesInfo.Defs` (none is a nil
`TypesInfo`) and `scope` the objects of `Types.Scope()` in the order of `Names()` (none is a nil `Types`); in both lists
none stands for an entry that is nil or no type name. -/
structure Pkg where
  path : Str
  name : Str
  module : Option ModIdent
  defs : Option (List (Option TypeDef))
  scope : Option (List (Option TypeDef))

/-- extractor.go:47-86 `extractLocal`, the loop. -/
def extractDefs (E : Ext) (scopes : Scopes) (project : Bool) (p : Pkg) (table : Table) :
    List (Option TypeDef) → State → Option State
  | [], s => some s
  | none :: ds, s => extractDefs E scopes project p table ds s
  | some d :: ds, s =>
    if p.scope.isSome ∧ ¬ d.pkgLevel then extractDefs E scopes project p table ds s
    else match d.named with
      | none => extractDefs E scopes project p table ds s
      | some named =>
        match table.get d.obj.pos with
        | none => extractDefs E scopes project p table ds s
        | some i =>
          match classify E scopes project named ⟨.entry p.path d.obj.pos, i.symbol⟩ p.path s with
          | none => none
          | some s' => extractDefs E scopes project p table ds s'

/-- extractor.go:88-109 `extractRemote`. -/
def extractScope (E : Ext) (scopes : Scopes) (project : Bool) (p : Pkg) : List (Option TypeDef) → State → Option State
  | [], s => some s
  | none :: ds, s => extractScope E scopes project p ds s
  | some d :: ds, s =>
    if ¬ isExported d.obj.name then extractScope E scopes project p ds s
    else match d.named with
      | none => extractScope E scopes project p ds s
      | some named =>
        let (c, sym) := s.g.composer.compose scopes (some p.module) (some (.plain d.obj))
        let s := { s with g := { s.g with composer := c } }
        if sym = [] then extractScope E scopes project p ds s
        else match classify E scopes project named ⟨.type project sym, sym⟩ p.path s with
          | none => none
          | some s' => extractScope E scopes project p ds s'

/-- extractor.go:31-41: one package. -/
def extractPkg (E : Ext) (scopes : Scopes) (project : Bool) (p : Pkg) (s : State) : Option State :=
  if p.name = go!"builtin" then some s
  else match p.defs with
    | some ds =>
      match s.g.symbols.lookup p.path with
      | none => some s
      | some r => extractDefs E scopes project p r.table ds s
    | none =>
      match p.scope with
      | some ds => extractScope E scopes project p ds s
      | none => some s

/-- extractor.go:26-45 `Extract`, the loop over the packages in some order. -/
def extractAll (E : Ext) (scopes : Scopes) (project : Bool) : List Pkg → State → Option State
  | [], s => some s
  | p :: ps, s =>
    match extractPkg E scopes project p s with
    | none => none
    | some s' => extractAll E scopes project ps s'

/-- extractor.go:26-45 `Extract`: the maps start empty. -/
def extract (E : Ext) (scopes : Scopes) (project : Bool) (g : Global) (ps : List Pkg) : Option State :=
  extractAll E scopes project ps ⟨g, [], []⟩

/-- `types.Implements` (dependency): every method of the interface is in the method set of the type (or of the pointer to
it) with an identical signature, and the type is in the type set that the interface describes by other elements. -/
def implements (E : Ext) (ptr : Bool) (t i : NamedT) : Bool :=
  E.inTypeSet ptr t.decl i.decl &&
  i.methods.all (fun m => t.methods.any (fun n => (ptr || n.inValue) && n.id == m.id && Fp.identical n.sig m.sig))

/-- The relationship lists of all symbol descriptions. -/
abbrev Heap := Ref → List Str

/-- Assignment to the field `Relationships` of a description. -/
def Heap.set (h : Heap) (r : Ref) (l : List Str) : Heap := fun r' => if r' = r then l else h r'

/-- The relationship implementations.go:97-100 and 109-112 append. -/
def Heap.append (h : Heap) (r : Ref) (sym : Str) : Heap := h.set r (h r ++ [sym])

/-- The order in which one iteration over the interfaces visits the methods of one interface. -/
structure IfaceVisit where
  iface : ImplDef
  methods : List (Str × SymRef)

/-- The orders chosen while one concrete type is processed: interfaces, and the type's methods in implementations.go:117. -/
structure TypeVisit where
  ty : ImplDef
  ifaces : List IfaceVisit
  canon : List (Str × SymRef)

/-- implementations.go:65-94: the tests that an interface has to pass. -/
def passes (E : Ext) (ty iface : ImplDef) : Bool :=
  if ¬ iface.named.isIface then false
  else if iface.hasUnexported ∧ ty.pkgPath ≠ iface.pkgPath then false
  else if ty.methodCount < iface.methodCount then false
  else if ty.mask &&& iface.mask ≠ iface.mask then false
  else implements E false ty.named iface.named || implements E true ty.named iface.named

/-- implementations.go:103-113: the loop over the methods of the interface. -/
def addMethods (ty : ImplDef) : List (Str × SymRef) → Heap → Heap
  | [], h => h
  | (id, m) :: ms, h =>
    match ty.methods.lookup id with
    | none => addMethods ty ms h
    | some r => addMethods ty ms (h.append r.ref m.sym)

/-- implementations.go:64-114: the loop over the interfaces. -/
def addInterfaces (E : Ext) (ty : ImplDef) : List IfaceVisit → Heap → Heap
  | [], h => h
  | v :: vs, h =>
    if passes E ty v.iface then
      addInterfaces E ty vs (addMethods ty v.methods (h.append ty.symbol.ref v.iface.symbol.sym))
    else addInterfaces E ty vs h

/-- implementations.go:117-119: the loop over the methods of the type. -/
def canonMethods : List (Str × SymRef) → Heap → Heap
  | [], h => h
  | (_, m) :: ms, h => canonMethods ms (h.set m.ref (canonicalize (h m.ref)))

/-- implementations.go:62-123 `findImplementations`: heap and counter. -/
def findImplementations (E : Ext) : List TypeVisit → Heap × Nat → Heap × Nat
  | [], s => s
  | v :: vs, (h, n) =>
    let h := addInterfaces E v.ty v.ifaces h
    let h := h.set v.ty.symbol.ref (canonicalize (h v.ty.symbol.ref))
    findImplementations E vs (canonMethods v.canon h, n + 1)

/-- The orders chosen in one run: the three passes and the final loop of implementations.go:167. -/
structure Orders where
  localLocal : List TypeVisit
  localRemote : List TypeVisit
  remoteLocal : List TypeVisit
  external : List ImplDef

/-- The result of `AddImplementationRelationships`, with the final heap and the values of `total` and `count`. -/
structure Result where
  g : Global
  heap : Heap
  external : List SymRef
  total : Nat
  count : Nat

/-- implementations.go:134-141: the packages that are not in the project. -/
def remotePackages (pkgs all : List Pkg) : List Pkg := all.filter (fun p => ¬ p.path ∈ pkgs.map (·.path))

/-- implementations.go:125-174 `AddImplementationRelationships`.  The goroutine of implementations.go:150-162 is the only
one that touches the heap, and the caller waits for it.  `orders` chooses the iteration orders once the maps are known. -/
def addImplementations (E : Ext) (scopes : Scopes) (g : Global) (h : Heap) (pkgs all : List Pkg)
    (orders : State → State → Orders) : Option Result :=
  match extract E scopes true g pkgs with
  | none => none
  | some loc =>
    match extract E scopes false loc.g (remotePackages pkgs all) with
    | none => none
    | some rem =>
      let o := orders loc rem
      let s := findImplementations E o.localLocal (h, 0)
      let s := findImplementations E o.localRemote s
      let s := findImplementations E o.remoteLocal s
      some { g := rem.g, heap := s.1
             external := (o.external.filter (fun t => s.1 t.symbol.ref ≠ [])).map (·.symbol)
             total := loc.concretes.length * 2 + rem.concretes.length, count := s.2 }

end Verif.Impl
