import Verif.Spec.Content
import Verif.Model.Log
/-!
# Specification: what is reported while a file is visited

A file is a sequence of mentions in the order of the source: what the index has occurrences for (C87), and names `pkg.Name` of packages that were
not loaded, which are left out of the index altogether.
-/
namespace Verif.Spec
open Verif.Index Log

/-- Something that is met in a file. -/
inductive Mention where
  | met (e : Event)
  /-- `i.sel` where `i` is the name of the package `imported`, which was not loaded -/
  | dropped (i : Ident) (imported : Str) (sel : Ident)

mutual

/-- Everything that is met in a tree, in the order of the source; `known` are the packages that were loaded (compare `traverse`). -/
def mentions (env : FileEnv) (known : Str → Bool) : Node → List Mention
  | .importSpec uid name pathPos => [.met (.imp uid name pathPos)]
  | .selector x sel =>
    match packageQualifier env x with
    | some (i, o, imported) => if known imported then [.met (.qualifier i o imported), .met (.ident sel none)] else [.dropped i imported sel]
    | none => mentions env known x ++ [.met (.ident sel none)]
  | .funcDecl recv name typ body pos endPos _ =>
    mentionsList env known recv ++ .met (.ident name (some (pos, endPos))) :: (mentions env known typ ++ mentionsList env known body)
  | .file _ decls => mentionsList env known decls
  | .ident i => [.met (.ident i none)]
  | .star x => mentions env known x
  | .paren x => mentions env known x
  | .index x is => mentions env known x ++ mentionsList env known is
  | .unary x => mentions env known x
  | .arrayT len elt => mentionsList env known len ++ mentions env known elt
  | .mapT k v => mentions env known k ++ mentions env known v
  | .chanT v => mentions env known v
  | .funcT tps ps rs => mentionsList env known tps ++ (mentionsList env known ps ++ mentionsList env known rs)
  | .structT fs => mentionsList env known fs
  | .ifaceT ms => mentionsList env known ms
  | .field _ names typ _ _ => names.map (fun i => .met (.ident i none)) ++ mentions env known typ
  | .block ss => mentionsList env known ss
  | .typeSpec name tps typ _ => .met (.ident name none) :: (mentionsList env known tps ++ mentions env known typ)
  | .valueSpec _ names typ values _ _ =>
    names.map (fun i => .met (.ident i none)) ++ (mentionsList env known typ ++ mentionsList env known values)
  | .genDecl _ specs _ => mentionsList env known specs
  | .badDecl => []
  | .other cs => mentionsList env known cs

/-- The same for a list of trees. -/
def mentionsList (env : FileEnv) (known : Str → Bool) : List Node → List Mention
  | [] => []
  | n :: ns => mentions env known n ++ mentionsList env known ns

end

/-- What is met of it by the index. -/
def eventsMet (ms : List Mention) : List Event := ms.filterMap fun m => match m with | .met e => some e | .dropped _ _ _ => none

/-- The mentions of a source file. -/
abbrev fileMentionsOf (D : Deps) (all : GoMap Package) (p : Package) (f : SourceFile) : List Mention :=
  mentionsList (sourceEnv D p) (fun q => (all.get q).isSome) f.decls

/-- Has no symbol by design: predeclared entities, what belongs to `unsafe`, labels and `nil`. -/
def NeedsNoSymbol (r : Obj) : Prop := r.self.pkg = none ∨ r.self.pkg = some go!"unsafe" ∨ r.self.cls = .label ∨ r.self.cls = .nil

/-- `rs` is what is reported about the identifier `u`; `upto` are the identifiers of the file up to and including `u`. -/
structure IdentReport (D : Deps) (project all : GoMap Package) (e : Package × SourceFile) (upto : List Ident) (u : Ident) (rs : List Record) : Prop where
  blank : u.name = go!"_" ∨ SwitchIdent e.1 u → rs = []
  /-- the type checker knows nothing about it -/
  unresolved : u.name ≠ go!"_" → ¬ SwitchIdent e.1 u → e.1.env.uses u.uid = none → e.1.env.defs u.uid = none →
    rs = [.unresolved u.name (e.1.env.position u.pos)]
  declares : e.1.env.uses u.uid = none → e.1.env.defs u.uid ≠ none → rs = []
  /-- it refers to a local that has been declared -/
  toLocal : ∀ r, e.1.env.uses u.uid = some r → (∃ l ∈ localIdents D all e.1 e.2, l ∈ upto ∧ l.pos = r.self.pos) → rs = []
  /-- it refers to something that has a symbol, or needs none -/
  toEntity : ∀ r, e.1.env.uses u.uid = some r → (∃ sym, NamedBy D project all r sym) ∨ NeedsNoSymbol r → rs = []
  /-- it refers to something that should have a symbol but has none -/
  lost : u.name ≠ go!"_" → ¬ SwitchIdent e.1 u → ∀ r, e.1.env.uses u.uid = some r →
    (∀ l ∈ localIdents D all e.1 e.2, l ∈ upto → l.pos ≠ r.self.pos) → (∀ sym, ¬ NamedBy D project all r sym) → ¬ NeedsNoSymbol r →
    ∃ path, r.self.pkg = some path ∧ rs = [.objectUnknown (e.1.env.position u.pos) path]

/-- `rs` is what is reported about an import spec. -/
structure ImportReport (all : GoMap Package) (p : Package) (uid pathPos : Nat) (rs : List Record) : Prop where
  unresolved : (p.pkgNameOf uid).bind p.imports = none → rs = [.importUnresolved pathPos]
  unknown : ∀ imported, (p.pkgNameOf uid).bind p.imports = some imported → (∀ q, (imported, q) ∉ all) → rs = [.importUnknown imported]
  known : ∀ imported q, (p.pkgNameOf uid).bind p.imports = some imported → (imported, q) ∈ all → rs = []

/-- `rs` is what is reported about a mention. -/
def MentionReport (D : Deps) (project all : GoMap Package) (e : Package × SourceFile) (upto : List Ident) (m : Mention) (rs : List Record) : Prop :=
  match m with
  | .met (.ident u _) => IdentReport D project all e upto u rs
  | .met (.qualifier _ _ _) => rs = []
  | .met (.imp uid _ pathPos) => ImportReport all e.1 uid pathPos rs
  | .dropped _ imported _ => rs = [.packageUnknown imported]

/-- `log` is what is reported about a file: the reports of its mentions, in the order of the source. -/
def FileReport (D : Deps) (project all : GoMap Package) (e : Package × SourceFile) (log : List Record) : Prop :=
  ∃ parts : List (List Record), log = parts.flatten ∧ parts.length = (fileMentionsOf D all e.1 e.2).length ∧
    ∀ k m rs, (fileMentionsOf D all e.1 e.2)[k]? = some m → parts[k]? = some rs →
      MentionReport D project all e (identsOf (eventsMet ((fileMentionsOf D all e.1 e.2).take (k + 1)))) m rs

end Verif.Spec
