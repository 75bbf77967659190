import Verif.Model.Visitors
/-!
# The records of level Debug of the collecting visitors (visitors.go:153, visitor_var.go:92)

The functions follow those of Model/Visitors.lean and give the records in the order in which they are made.  A record does not depend on the scope or on the
table, so there is no state here.
-/
namespace Verif

/-- A record of level Debug of the collecting pass. -/
inductive VisitNote where
  /-- visitor_var.go:92 "TODO: handle type …"; the position of the spec -/
  | typeTodo (pos : Nat)
  /-- visitors.go:153 "Unhandled named struct field: …".  Simplified: the position of the field, where the record has that of its type. -/
  | fieldUnhandled (pos : Nat)
  deriving DecidableEq, Repr

/-- visitors.go:114-156 `getIdentOfTypeExpr`.  `.other` is an `*ast.BinaryExpr` here (visitors.go:124-131); simplified: a syntax error (`*ast.BadExpr`), which
would be reported, is not told apart from it. -/
def embeddedNotes (pos : Nat) : Node → List VisitNote
  | .ident _ => []
  | .selector _ _ => []
  | .star x => embeddedNotes pos x
  | .index x _ => embeddedNotes pos x
  | .unary x => embeddedNotes pos x
  | .other _ => []
  | .ifaceT _ => []
  | .funcT .. => []
  | .mapT .. => []
  | .arrayT .. => []
  | .chanT _ => []
  | _ => [.fieldUnhandled pos]

mutual

/-- visitor_type.go:68-80 (as `typeBody`). -/
def typeBodyNotes (env : PkgEnv) (isI : Bool) : Node → List VisitNote
  | .structT fields => typeFieldsNotes env isI fields
  | .ifaceT methods => typeFieldsNotes env isI methods
  | _ => []

/-- visitor_type.go:95-125 (as `typeField`). -/
def typeFieldNotes (env : PkgEnv) (isI : Bool) : Node → List VisitNote
  | .field pos names typ _ _ =>
    match names with
    | [] => if isI then typeBodyNotes env isI typ else embeddedNotes pos typ
    | names => names.flatMap fun _ => typeAnonNotes env isI typ
  | _ => []

/-- visitor_type.go:133-149 `walkAnonymousTypeFields` (as `typeAnon`). -/
def typeAnonNotes (env : PkgEnv) (isI : Bool) : Node → List VisitNote
  | .mapT k v => typeAnonNotes env isI k ++ typeAnonNotes env isI v
  | .arrayT _ elt => typeAnonNotes env isI elt
  | .star x => typeAnonNotes env isI x
  | .structT fields => if env.anonKey (.structT fields) = [] then [] else typeFieldsNotes env isI fields
  | .ifaceT methods => if env.anonKey (.ifaceT methods) = [] then [] else typeFieldsNotes env isI methods
  | _ => []

/-- `ast.Walk` over a field list. -/
def typeFieldsNotes (env : PkgEnv) (isI : Bool) : List Node → List VisitNote
  | [] => []
  | n :: ns => typeFieldNotes env isI n ++ typeFieldsNotes env isI ns

end

/-- visitor_type.go:52-64, 82-94 (as `typeSpecs`). -/
def typeSpecsNotes (env : PkgEnv) (isI : Bool) : List Node → List VisitNote
  | [] => []
  | s :: ss =>
    let isI := match s with
      | .typeSpec _ _ (.ifaceT _) _ => true
      | .typeSpec _ _ _ _ => false
      | _ => isI
    (match s with
      | .typeSpec _ _ typ _ => typeBodyNotes env isI typ
      | _ => []) ++ typeSpecsNotes env isI ss

/-- visitor_type.go:12-20 `visitTypesInFile` (as `typeDecls`). -/
def typeDeclsNotes (env : PkgEnv) : List Node → List VisitNote
  | [] => []
  | .genDecl _ specs _ :: ds => typeSpecsNotes env false specs ++ typeDeclsNotes env ds
  | _ :: ds => typeDeclsNotes env ds

mutual

/-- visitor_var.go:33-134 `varVisitor.Visit` under `ast.Walk` (as `varWalk`). -/
def varNotes (env : PkgEnv) : Node → List VisitNote
  | .genDecl tok specs _ => if tok = .var ∨ tok = .const then varNotesList env specs else []
  | .valueSpec pos names typ values _ _ =>
    if names = [] then []
    else
      match varTypeClass typ with
      | .unhandled => [.typeTodo pos]
      | .skip => varNotesList env values
      | .walk => varNotesList env typ ++ varNotesList env values
  | .field pos names typ _ _ =>
    match names with
    | [] => embeddedNotes pos typ
    | names => names.flatMap fun _ => varAnonNotes env typ
  | .ident _ => []
  | .selector x _ => varNotes env x
  | .star x => varNotes env x
  | .paren x => varNotes env x
  | .index x is => varNotes env x ++ varNotesList env is
  | .unary x => varNotes env x
  | .arrayT len elt => varNotesList env len ++ varNotes env elt
  | .mapT k v => varNotes env k ++ varNotes env v
  | .chanT v => varNotes env v
  | .funcT tparams params results => varNotesList env tparams ++ (varNotesList env params ++ varNotesList env results)
  | .structT fields => varNotesList env fields
  | .ifaceT methods => varNotesList env methods
  | .block stmts => varNotesList env stmts
  | .importSpec _ _ _ => []
  | .typeSpec _ tparams typ _ => varNotesList env tparams ++ varNotes env typ
  | .funcDecl recv _ typ body _ _ _ => varNotesList env recv ++ (varNotes env typ ++ varNotesList env body)
  | .badDecl => []
  | .file _ decls => varNotesList env decls
  | .other children => varNotesList env children

/-- visitor_var.go:136-152 `walkAnonymousTypeFields` (as `varAnon`). -/
def varAnonNotes (env : PkgEnv) : Node → List VisitNote
  | .mapT k v => varAnonNotes env k ++ varAnonNotes env v
  | .arrayT _ elt => varAnonNotes env elt
  | .star x => varAnonNotes env x
  | .structT fields => if env.anonKey (.structT fields) = [] then [] else varNotesList env fields
  | .ifaceT methods => if env.anonKey (.ifaceT methods) = [] then [] else varNotesList env methods
  | _ => []

/-- `ast.Walk` over a list of children; also visitors.go:79-83 `walkExprList`. -/
def varNotesList (env : PkgEnv) : List Node → List VisitNote
  | [] => []
  | n :: ns => varNotes env n ++ varNotesList env ns

end

/-- visitors.go:48-74, the loop over the declarations, until the first panic (the function visitor makes no records). -/
def visitDeclsNotes (env : PkgEnv) : List Node → List VisitNote
  | [] => []
  | d :: ds =>
    match d with
    | .genDecl .other _ _ => []
    | .genDecl .var _ _ => varNotes env d ++ visitDeclsNotes env ds
    | .genDecl .const _ _ => varNotes env d ++ visitDeclsNotes env ds
    | _ => visitDeclsNotes env ds

/-- visitors.go:40-77 `visitSyntax`. -/
def visitSyntaxNotes (env : PkgEnv) : Node → List VisitNote
  | .file _ decls => typeDeclsNotes env decls ++ visitDeclsNotes env decls
  | _ => []

/-- visitors.go:18-38 `VisitPackageSyntax`, until the first panic. -/
def visitPackageNotes (env : PkgEnv) : List Node → List VisitNote
  | [] => []
  | f :: fs => visitSyntaxNotes env f ++ if (visitSyntax env f []).isNone then [] else visitPackageNotes env fs

end Verif
