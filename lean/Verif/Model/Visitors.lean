import Verif.Model.Document
/-!
# internal/visitors: the three collecting visitors (visitor_type.go, visitor_func.go, visitor_var.go)

The visitors share the mutable `Scope` and the document (whose table they fill); this is the state
`VState`.  `ast.Walk` (dependency) calls `Visit` on a node and, if a visitor is returned, on its children in
order; the functions below are the composition of the two.
-/
namespace Verif

/-- The mutable state of a collecting visitor: scope.go:11-13 `Scope.descriptors`, the declaration table,
visitor_var.go:27 `curDecl` (only used by the var visitor), and the warnings of `Package.Set` so far. -/
structure VState where
  scope : List Descriptor
  table : Table
  curDecl : Option Parent := none
  warned : List Conflict := []

namespace VState

/-- scope.go:26-28 `push`. -/
def push (st : VState) (name : Str) (sfx : Suffix) : VState :=
  { st with scope := st.scope ++ [⟨name, sfx⟩] }

/-- scope.go:30-32 `pop` (on an empty scope the Go code panics; every visitor pops only after a push). -/
def pop (st : VState) : VState := { st with scope := st.scope.dropLast }

/-- document.go:102-144 `SetNewSymbolForPos`. -/
def register (st : VState) (env : PkgEnv) (ds : List Descriptor) (parent : Parent) (ident : Ident) (pos : Nat) :
    VState :=
  { st with
    table := st.table.set pos (newSymInfo env (env.fromDescriptors ds) parent ident)
    warned := st.warned ++ st.table.conflict pos (newSymInfo env (env.fromDescriptors ds) parent ident) }

end VState

/-- A nil `curDecl` (visitor_type.go:39) or parent: no documentation.  It never occurs, because specs are only reached
through their declaration. -/
def noParent : Parent := .funcDecl []

/-- scope.go:15-24 `NewScope`. -/
def newScope (pkgPath : Str) : List Descriptor := [⟨pkgPath, .nspace⟩]

/-- visitors.go:114-156 `getIdentOfTypeExpr`. -/
def getIdentOfTypeExpr : Node → List Ident
  | .ident i => [i]
  | .selector _ sel => [sel]
  | .star x => getIdentOfTypeExpr x
  | .index x _ => getIdentOfTypeExpr x
  | .unary x => getIdentOfTypeExpr x
  | _ => []

/-! ## visitor_type.go -/

mutual

/-- visitor_type.go:37-128 `typeVisitor.Visit` under `ast.Walk`, on a type expression: struct and interface types
are descended into (visitor_type.go:68-80), every other expression declares nothing (visitor_type.go:127). -/
def typeBody (env : PkgEnv) (isI : Bool) : Node → VState → VState
  | .structT fields, st => typeFields env isI fields st
  | .ifaceT methods, st => typeFields env isI methods st
  | _, st => st

/-- visitor_type.go:95-125: the case `*ast.Field`.  `isI` is the field `isInterface` of the visitor value.  (The
elements of a field list are fields; other nodes cannot occur and are ignored.) -/
def typeField (env : PkgEnv) (isI : Bool) : Node → VState → VState
  | .field _ names typ doc comment, st =>
    match names with
    | [] =>
      if isI then typeBody env isI typ st
      else (getIdentOfTypeExpr typ).foldl (fun st n =>
        st.register env (st.scope ++ [⟨n.name, .term⟩]) (.field doc comment) n n.pos) st
    | names => names.foldl (fun st n =>
        typeAnon env isI typ
          (st.register env (st.scope ++ [⟨n.name, .term⟩]) (.field doc comment) n n.pos)) st
  | _, st => st

/-- visitor_type.go:133-149 `walkAnonymousTypeFields`.  `ast.Walk(v, expr)` on a struct or interface type just descends
to its fields (visitor_type.go:68-80). -/
def typeAnon (env : PkgEnv) (isI : Bool) : Node → VState → VState
  | .mapT k v, st => typeAnon env isI v (typeAnon env isI k st)
  | .arrayT _ elt, st => typeAnon env isI elt st
  | .star x, st => typeAnon env isI x st
  | .structT fields, st =>
    let key := env.anonKey (.structT fields)
    if key = [] then st else (typeFields env isI fields (st.push key .typ)).pop
  | .ifaceT methods, st =>
    let key := env.anonKey (.ifaceT methods)
    if key = [] then st else (typeFields env isI methods (st.push key .typ)).pop
  | _, st => st

/-- `ast.Walk` over a field list. -/
def typeFields (env : PkgEnv) (isI : Bool) : List Node → VState → VState
  | [], st => st
  | n :: ns, st => typeFields env isI ns (typeField env isI n st)

end

/-- visitor_type.go:82-94: the case `*ast.TypeSpec`; other specs declare no types (visitor_type.go:127).  `cur` is the
field `curDecl`. -/
def typeSpec (env : PkgEnv) (cur : Parent) (isI : Bool) (spec : Node) (st : VState) : VState :=
  match spec with
  | .typeSpec name _ typ _ =>
    let st := st.push name.name .typ
    let st := st.register env st.scope cur name name.pos
    let st := typeBody env isI typ st
    st.pop
  | _ => st

/-- visitor_type.go:52-64: the loop over the specs of a declaration; `isInterface` is set for each type spec. -/
def typeSpecs (env : PkgEnv) (cur : Parent) (isI : Bool) : List Node → VState → VState
  | [], st => st
  | s :: ss, st =>
    let isI := match s with
      | .typeSpec _ _ (.ifaceT _) _ => true
      | .typeSpec _ _ _ _ => false
      | _ => isI
    typeSpecs env cur isI ss (typeSpec env cur isI s st)

/-- visitor_type.go:12-20 `visitTypesInFile`: the walk over the declarations of the file (visitor_type.go:43-67,
68-80); function declarations are not descended into (visitor_type.go:127). -/
def typeDecls (env : PkgEnv) : List Node → VState → VState
  | [], st => st
  | .genDecl _ specs doc :: ds, st =>
    typeDecls env ds (typeSpecs env (.genDecl specs doc) false specs st)
  | _ :: ds, st => typeDecls env ds st

/-! ## visitor_func.go -/

/-- visitor_func.go:103-117 `baseTypeName`. -/
def baseTypeName : Node → Option Str
  | .ident i => some i.name
  | .star x => baseTypeName x
  | .index x _ => baseTypeName x
  | .paren x => baseTypeName x
  | _ => none

/-- visitor_func.go:91-98 `receiverTypeName`. -/
def receiverTypeName : List Node → Option Str
  | .field _ _ typ _ _ :: _ => baseTypeName typ
  | _ => none

/-- visitor_func.go:64-73: the loop over the methods of an interface type. -/
def funcIface (env : PkgEnv) (methods : List Node) (st : VState) : VState :=
  methods.foldl (fun st m =>
    match m with
    | .field _ names _ doc comment => names.foldl (fun st n =>
        st.register env (st.scope ++ [⟨n.name, .method⟩]) (.field doc comment) n n.pos) st
    | _ => st) st

mutual

/-- visitor_func.go:19-79 `funcVisitor.Visit` under `ast.Walk`. -/
def funcWalk (env : PkgEnv) : Node → VState → VState
  | .funcDecl recv name typ _ _ _ doc, st =>
    let st := match receiverTypeName recv with
      | some r => st.push r .typ
      | none => st
    let st := st.register env (st.scope ++ [⟨name.name, .method⟩]) (.funcDecl doc) name name.pos
    let st := st.push go!"func" .metadesc
    let st := st.push name.name .metadesc
    let st := funcWalk env typ st
    st.pop
  | .funcT _ _ results, st => funcWalkList env results st
  | .block _, st => st
  | .ifaceT methods, st => funcIface env methods st
  | .ident _, st => st
  | .selector x _, st => funcWalk env x st
  | .star x, st => funcWalk env x st
  | .paren x, st => funcWalk env x st
  | .index x is, st => funcWalkList env is (funcWalk env x st)
  | .unary x, st => funcWalk env x st
  | .arrayT len elt, st => funcWalk env elt (funcWalkList env len st)
  | .mapT k v, st => funcWalk env v (funcWalk env k st)
  | .chanT v, st => funcWalk env v st
  | .structT fields, st => funcWalkList env fields st
  | .field _ _ typ _ _, st => funcWalk env typ st
  | .importSpec _ _ _, st => st
  | .typeSpec _ tparams typ _, st => funcWalk env typ (funcWalkList env tparams st)
  | .valueSpec _ _ typ values _ _, st => funcWalkList env values (funcWalkList env typ st)
  | .genDecl _ specs _, st => funcWalkList env specs st
  | .badDecl, st => st
  | .file _ decls, st => funcWalkList env decls st
  | .other children, st => funcWalkList env children st

/-- `ast.Walk` over a list of children. -/
def funcWalkList (env : PkgEnv) : List Node → VState → VState
  | [], st => st
  | n :: ns, st => funcWalkList env ns (funcWalk env n st)

end

/-! ## visitor_var.go -/

/-- How `varVisitor` treats the declared type of a spec (visitor_var.go:66-96). -/
inductive VarType where
  | skip | walk | unhandled
  deriving DecidableEq, Repr

/-- visitor_var.go:66-96. -/
def varTypeClass : List Node → VarType
  | [] => .skip
  | t :: _ =>
    match t with
    | .funcT .. | .ident _ | .chanT _ | .arrayT .. | .mapT .. | .star _ | .selector .. | .index .. => .skip
    | .ifaceT _ | .structT _ => .walk
    | _ => .unhandled

/-- visitor_var.go:57-63: the name of the scope of a spec. -/
def varScopeName (env : PkgEnv) (pos : Nat) : List Ident → Str
  | [n] => n.name
  | _ => go!"inline-" ++ Str.natDigits (env.position pos).line ++ '-' :: Str.natDigits (env.position pos).col

mutual

/-- visitor_var.go:33-134 `varVisitor.Visit` under `ast.Walk`. -/
def varWalk (env : PkgEnv) : Node → VState → VState
  | .genDecl tok specs doc, st =>
    if tok = .var ∨ tok = .const then varWalkList env specs { st with curDecl := some (.genDecl specs doc) }
    else st
  | .valueSpec pos names typ values _ _, st =>
    let st := names.foldl (fun st n =>
      st.register env (st.scope ++ [⟨n.name, .term⟩]) (st.curDecl.getD noParent) n n.pos) st
    if names = [] then st
    else
      let st := st.push (varScopeName env pos names) .metadesc
      match varTypeClass typ with
      | .unhandled => st                       -- visitor_var.go:91-95: returns without `pop`
      | .skip => (varWalkList env values st).pop
      | .walk => (varWalkList env values (varWalkList env typ st)).pop
  | .field pos names typ doc comment, st =>
    match names with
    | [] => (getIdentOfTypeExpr typ).foldl (fun st n =>
        st.register env (st.scope ++ [⟨n.name, .term⟩]) (.field doc comment) n pos) st
    | names => names.foldl (fun st n =>
        varAnon env typ (st.register env (st.scope ++ [⟨n.name, .term⟩]) (.field doc comment) n n.pos)) st
  | .ident _, st => st
  | .selector x _, st => varWalk env x st
  | .star x, st => varWalk env x st
  | .paren x, st => varWalk env x st
  | .index x is, st => varWalkList env is (varWalk env x st)
  | .unary x, st => varWalk env x st
  | .arrayT len elt, st => varWalk env elt (varWalkList env len st)
  | .mapT k v, st => varWalk env v (varWalk env k st)
  | .chanT v, st => varWalk env v st
  | .funcT tparams params results, st =>
    varWalkList env results (varWalkList env params (varWalkList env tparams st))
  | .structT fields, st => varWalkList env fields st
  | .ifaceT methods, st => varWalkList env methods st
  | .block stmts, st => varWalkList env stmts st
  | .importSpec _ _ _, st => st
  | .typeSpec _ tparams typ _, st => varWalk env typ (varWalkList env tparams st)
  | .funcDecl recv _ typ body _ _ _, st =>
    varWalkList env body (varWalk env typ (varWalkList env recv st))
  | .badDecl, st => st
  | .file _ decls, st => varWalkList env decls st
  | .other children, st => varWalkList env children st

/-- visitor_var.go:136-152 `walkAnonymousTypeFields`. -/
def varAnon (env : PkgEnv) : Node → VState → VState
  | .mapT k v, st => varAnon env v (varAnon env k st)
  | .arrayT _ elt, st => varAnon env elt st
  | .star x, st => varAnon env x st
  | .structT fields, st =>
    let key := env.anonKey (.structT fields)
    if key = [] then st else (varWalkList env fields (st.push key .typ)).pop
  | .ifaceT methods, st =>
    let key := env.anonKey (.ifaceT methods)
    if key = [] then st else (varWalkList env methods (st.push key .typ)).pop
  | _, st => st

/-- `ast.Walk` over a list of children; also visitors.go:79-83 `walkExprList`. -/
def varWalkList (env : PkgEnv) : List Node → VState → VState
  | [], st => st
  | n :: ns, st => varWalkList env ns (varWalk env n st)

end

/-! ## visitors.go: the collecting pass over a package -/

/-- visitors.go:48-74, one declaration.  `none` is the panic of visitors.go:67. -/
def visitDecl (env : PkgEnv) (decl : Node) (t : Table) : Option Table :=
  match decl with
  | .genDecl .imp _ _ => some t
  | .genDecl .typ _ _ => some t
  | .genDecl .var _ _ => some (varWalk env decl ⟨newScope env.pkgPath, t, none, []⟩).table
  | .genDecl .const _ _ => some (varWalk env decl ⟨newScope env.pkgPath, t, none, []⟩).table
  | .genDecl .other _ _ => none
  | .funcDecl .. => some (funcWalk env decl ⟨newScope env.pkgPath, t, none, []⟩).table
  | _ => some t

/-- visitors.go:48-74: the loop over the declarations. -/
def visitDecls (env : PkgEnv) : List Node → Table → Option Table
  | [], t => some t
  | d :: ds, t => (visitDecl env d t).bind (visitDecls env ds)

/-- visitors.go:40-77 `visitSyntax` (visitor_type.go:12-20 `visitTypesInFile` first). -/
def visitSyntax (env : PkgEnv) (f : Node) (t : Table) : Option Table :=
  match f with
  | .file _ decls => visitDecls env decls (typeDecls env decls ⟨newScope env.pkgPath, t, none, []⟩).table
  | _ => some t

/-- visitors.go:18-38 `VisitPackageSyntax`: the table of the package after all files.  (The documents it creates
carry only the relative path here.) -/
def visitPackageSyntax (env : PkgEnv) : List Node → Table → Option Table
  | [], t => some t
  | f :: fs, t => (visitSyntax env f t).bind (visitPackageSyntax env fs)

/-! ## The warnings of the collecting pass -/

/-- visitors.go:48-74: what is warned of while one declaration is visited. -/
def visitDeclWarned (env : PkgEnv) (decl : Node) (t : Table) : List Conflict :=
  match decl with
  | .genDecl .var _ _ => (varWalk env decl ⟨newScope env.pkgPath, t, none, []⟩).warned
  | .genDecl .const _ _ => (varWalk env decl ⟨newScope env.pkgPath, t, none, []⟩).warned
  | .funcDecl .. => (funcWalk env decl ⟨newScope env.pkgPath, t, none, []⟩).warned
  | _ => []

/-- visitors.go:48-74: what is warned of in the loop over the declarations, until the first panic. -/
def visitDeclsWarned (env : PkgEnv) : List Node → Table → List Conflict
  | [], _ => []
  | d :: ds, t => visitDeclWarned env d t ++
      match visitDecl env d t with
      | none => []
      | some t => visitDeclsWarned env ds t

/-- visitors.go:40-77 `visitSyntax`. -/
def visitSyntaxWarned (env : PkgEnv) (f : Node) (t : Table) : List Conflict :=
  match f with
  | .file _ decls =>
    let st := typeDecls env decls ⟨newScope env.pkgPath, t, none, []⟩
    st.warned ++ visitDeclsWarned env decls st.table
  | _ => []

/-- visitors.go:18-38 `VisitPackageSyntax`. -/
def visitPackageSyntaxWarned (env : PkgEnv) : List Node → Table → List Conflict
  | [], _ => []
  | f :: fs, t => visitSyntaxWarned env f t ++
      match visitSyntax env f t with
      | none => []
      | some t => visitPackageSyntaxWarned env fs t

end Verif
