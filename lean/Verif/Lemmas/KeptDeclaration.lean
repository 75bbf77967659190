import Verif.Spec.KeptDeclaration
import Verif.Lemmas.Renaming
import Verif.Lemmas.Naming
/-! # Declarations at other places declare the same (for C110) -/
namespace Verif
open Spec Index

variable {ρ : Renaming}

theorem mem_renNodes {n : Node} {ns : List Node} (h : n ∈ ns) : renNode ρ n ∈ renNodes ρ ns := by
  rw [renNodes_map]; exact List.mem_map_of_mem h

theorem renNodes_append (as bs : List Node) : renNodes ρ (as ++ bs) = renNodes ρ as ++ renNodes ρ bs := by
  simp [renNodes_map]

theorem children_ren (n : Node) : children (renNode ρ n) = renNodes ρ (children n) := by
  cases n <;> simp [children, renNode, renNodes, renNodes_append]

theorem isPlain_ren (n : Node) : isPlain (renNode ρ n) = isPlain n := by cases n <;> rfl

theorem isHandledType_ren (n : Node) : isHandledType (renNode ρ n) = isHandledType n := by cases n <;> rfl

theorem handledSpec_ren (ns : List Node) : handledSpec (renNodes ρ ns) = handledSpec ns := by
  cases ns <;> simp [handledSpec, renNodes, isHandledType_ren]

theorem isIfaceBody_ren (n : Node) : isIfaceBody (renNode ρ n) = isIfaceBody n := by cases n <;> rfl

theorem HasField.ren {t f : Node} (h : HasField t f) : HasField (renNode ρ t) (renNode ρ f) := by
  cases h with
  | struct h => exact .struct (mem_renNodes h)
  | iface h => exact .iface (mem_renNodes h)

theorem HasField.below {t f : Node} (h : HasField t f) : f ∈ children t := by
  cases h with
  | struct h => exact h
  | iface h => exact h

theorem EmbeddedName.ren {t : Node} {i : Ident} (h : EmbeddedName t i) : EmbeddedName (renNode ρ t) (renIdent ρ i) := by
  induction h with
  | ident => exact .ident _
  | selector => exact .selector _ _
  | star _ ih => exact .star ih
  | index _ ih => exact .index ih
  | unary _ ih => exact .unary ih

theorem Reaches.ren {t l : Node} (h : Reaches t l) : Reaches (renNode ρ t) (renNode ρ l) := by
  induction h with
  | struct => exact .struct _
  | iface => exact .iface _
  | mapKey _ ih => exact .mapKey ih
  | mapValue _ ih => exact .mapValue ih
  | array _ ih => exact .array ih
  | star _ ih => exact .star ih

theorem Reaches.below {t l : Node} (h : Reaches t l) : Below t l := by
  induction h with
  | struct => exact .refl _
  | iface => exact .refl _
  | mapKey _ ih => exact .child (by simp [children]) ih
  | mapValue _ ih => exact .child (by simp [children]) ih
  | array _ ih => exact .child (by simp [children]) ih
  | star _ ih => exact .child (by simp [children]) ih

theorem OpenVarType.ren {t : Node} (h : OpenVarType t) : OpenVarType (renNode ρ t) := by
  cases h with
  | struct => exact .struct _
  | iface => exact .iface _

theorem head_ren {ns : List Node} (h : ∀ t ∈ ns.head?, OpenVarType t) : ∀ t ∈ (renNodes ρ ns).head?, OpenVarType t := by
  cases ns with
  | nil => intro t ht; simp [renNodes] at ht
  | cons a as =>
    intro t ht
    simp only [renNodes, List.head?_cons, Option.mem_some_iff] at ht
    subst ht
    exact OpenVarType.ren (h a rfl)

theorem OpaqueVarType.ren {t : Node} (h : OpaqueVarType t) : OpaqueVarType (renNode ρ t) := by
  cases h <;> constructor

theorem RecvExprBase.ren {t : Node} {n : Str} (h : RecvExprBase t n) : RecvExprBase (renNode ρ t) n := by
  induction h with
  | ident i => exact .ident (renIdent ρ i)
  | star _ ih => exact .star ih
  | paren _ ih => exact .paren ih
  | index _ ih => exact .index ih

theorem RecvPath.ren {ns : List Node} {r : List Descriptor} (h : RecvPath ns r) : RecvPath (renNodes ρ ns) r := by
  cases h with
  | func => exact .func
  | method h => exact .method (RecvExprBase.ren h)

theorem ResultMethod.ren {t : Node} {i : Ident} (h : ResultMethod t i) : ResultMethod (renNode ρ t) (renIdent ρ i) := by
  induction h with
  | iface hm hi => exact .iface (mem_renNodes hm) (List.mem_map_of_mem hi)
  | result hm _ ih => exact .result (mem_renNodes hm) ih
  | field _ ih => exact .field ih
  | struct hm _ ih => exact .struct (mem_renNodes hm) ih
  | selector _ ih => exact .selector ih
  | star _ ih => exact .star ih
  | paren _ ih => exact .paren ih
  | indexX _ ih => exact .indexX ih
  | indexI hm _ ih => exact .indexI (mem_renNodes hm) ih
  | unary _ ih => exact .unary ih
  | arrayLen hm _ ih => exact .arrayLen (mem_renNodes hm) ih
  | arrayElt _ ih => exact .arrayElt ih
  | mapKey _ ih => exact .mapKey ih
  | mapValue _ ih => exact .mapValue ih
  | chan _ ih => exact .chan ih
  | other hm _ ih => exact .other (mem_renNodes hm) ih

theorem FuncDeclares.ren {path : Str} {d : Node} {i : Ident} {ds : List Descriptor} (h : FuncDeclares path d i ds) :
    FuncDeclares path (renNode ρ d) (renIdent ρ i) ds := by
  cases h with
  | name hr => exact .name (RecvPath.ren hr)
  | result hr hm => exact .result (RecvPath.ren hr) (ResultMethod.ren hm)

theorem Member.ren {key key' : Node → Str} {isI : Bool} {t : Node} {o : List Descriptor} {i : Ident} {ds : List Descriptor}
    (h : Member key isI t o i ds) : (∀ n, Below t n → key' (renNode ρ n) = key n) → Member key' isI (renNode ρ t) o (renIdent ρ i) ds := by
  induction h with
  | named hf hi => intro _; exact .named (HasField.ren hf) (List.mem_map_of_mem hi)
  | embedded hI hf he => intro _; exact .embedded hI (HasField.ren hf) (EmbeddedName.ren he)
  | embeddedLit hI hf _ ih =>
    intro hk
    refine .embeddedLit hI (HasField.ren hf) (ih fun n hn => hk n ?_)
    exact .child (HasField.below hf) (.child (by simp [children]) hn)
  | anon hf hne hr hk0 _ ih =>
    rename_i t o pos names typ d c lit i p _
    intro hk
    have hl : Below t lit := .child (HasField.below hf) (.child (by simp [children]) (Reaches.below hr))
    have e := hk lit hl
    refine .anon (HasField.ren hf) (by simpa using hne) (Reaches.ren hr) (by rw [e]; exact hk0) ?_
    rw [e]
    exact ih fun n hn => hk n (Below.trans hl hn)

theorem TypeSpecDeclares.ren {key key' : Node → Str} {path : Str} {s : Node} {i : Ident} {ds : List Descriptor}
    (h : TypeSpecDeclares key path s i ds) (hk : ∀ n, Below s n → key' (renNode ρ n) = key n) :
    TypeSpecDeclares key' path (renNode ρ s) (renIdent ρ i) ds := by
  cases h with
  | name => exact .name _ _ _ _
  | member hm =>
    refine .member ?_
    rw [isIfaceBody_ren]
    exact Member.ren hm fun n hn => hk n (.child (by simp [children]) hn)

/-! ## Comments -/

theorem Below.ren {n m : Node} (h : Below n m) : Below (renNode ρ n) (renNode ρ m) := by
  induction h with
  | refl n => exact .refl _
  | child hc _ ih => exact .child (by rw [children_ren]; exact mem_renNodes hc) ih

theorem NoDecl.ren {n : Node} (h : NoDecl n) : NoDecl (renNode ρ n) := by
  induction h with
  | @mk n h _ ih =>
    refine .mk ?_ ?_
    · intro tok specs doc e
      cases n <;> simp only [renNode] at e <;> cases e
      exact h _ _ _ rfl
    · intro c hc
      rw [children_ren, renNodes_map] at hc
      obtain ⟨c', hc', rfl⟩ := List.mem_map.1 hc
      exact ih c' hc'

/-- The comments of what a declaration declares stay with it. -/
theorem DocumentedAs.ren {d : Node} {i : Ident} {docs : List Str} (h : DocumentedAs [d] i docs) :
    DocumentedAs [renNode ρ d] (renIdent ρ i) docs := by
  cases h with
  | typ h1 h2 =>
    rw [← List.mem_singleton.1 h1]
    exact .typ (List.mem_singleton.2 rfl) (mem_renNodes h2)
  | @value tok pre post doc pos names typ vs own comment i h1 h2 h3 h4 =>
    rw [← List.mem_singleton.1 h1]
    refine .value (tok := tok) (pre := renNodes ρ pre) (post := renNodes ρ post) (pos := ρ.pos pos) (names := names.map (renIdent ρ))
      (typ := renNodes ρ typ) (vs := renNodes ρ vs) (List.mem_singleton.2 ?_) h2 (List.mem_map_of_mem h3) ?_
    · simp only [renNode, renNodes_append, renNodes]
    · intro s hs
      rw [renNodes_map] at hs
      obtain ⟨s', hs', rfl⟩ := List.mem_map.1 hs
      exact NoDecl.ren (h4 s' hs')
  | func h1 =>
    rw [← List.mem_singleton.1 h1]
    exact .func (List.mem_singleton.2 rfl)
  | field h1 h2 h3 =>
    rw [List.mem_singleton.1 h1] at h2
    refine .field (List.mem_singleton.2 rfl) (Below.ren h2) ?_
    rcases h3 with h3 | ⟨h3, h4⟩
    · exact .inl (List.mem_map_of_mem h3)
    · exact .inr ⟨by rw [h3]; rfl, EmbeddedName.ren h4⟩

theorem DocumentedAs.among {d : Node} {i : Ident} {docs : List Str} (h : DocumentedAs [d] i docs) {decls : List Node} (hd : d ∈ decls) :
    DocumentedAs decls i docs := by
  cases h with
  | typ h1 h2 => exact .typ (by rw [List.mem_singleton.1 h1]; exact hd) h2
  | value h1 h2 h3 h4 => exact .value (by rw [List.mem_singleton.1 h1]; exact hd) h2 h3 h4
  | func h1 => exact .func (by rw [List.mem_singleton.1 h1]; exact hd)
  | field h1 h2 h3 => exact .field hd (List.mem_singleton.1 h1 ▸ h2) h3

/-! ## Variables -/

/-- The paths are the same, apart from names of places. -/
def SamePath (x y : Descriptor) : Prop := y = x ∨ NamesPlace x ∧ NamesPlace y

theorem samePath_refl (l : List Descriptor) : List.Forall₂ SamePath l l := by
  induction l with
  | nil => exact .nil
  | cons _ _ ih => exact .cons (.inl rfl) ih

theorem samePath_append {a b c d : List Descriptor} (h : List.Forall₂ SamePath a b) (h' : List.Forall₂ SamePath c d) :
    List.Forall₂ SamePath (a ++ c) (b ++ d) := by
  induction h with
  | nil => exact h'
  | cons h _ ih => exact .cons h ih

theorem samePath_dropLast {a b : List Descriptor} (h : List.Forall₂ SamePath a b) : List.Forall₂ SamePath a.dropLast b.dropLast := by
  induction h with
  | nil => exact .nil
  | cons h ht ih =>
    cases ht with
    | nil => exact .nil
    | cons _ _ => exact .cons h ih

theorem samePath_eq {a b : List Descriptor} (h : List.Forall₂ SamePath a b) (hn : ∀ x ∈ a, ¬ NamesPlace x) : b = a := by
  induction h with
  | nil => rfl
  | cons h _ ih =>
    rcases h with rfl | ⟨h, _⟩
    · rw [ih fun x hx => hn x (List.mem_cons_of_mem _ hx)]
    · exact absurd h (hn _ (List.mem_cons_self ..))

section
variable {sname sname' : Nat → List Ident → Str}
  (hs : ∀ pos names, SamePath ⟨sname pos names, .metadesc⟩ ⟨sname' (ρ.pos pos) (names.map (renIdent ρ)), .metadesc⟩)
include hs

mutual

theorem leftOpen_ren : ∀ n : Node, List.Forall₂ SamePath (leftOpen sname n) (leftOpen sname' (renNode ρ n))
  | .valueSpec pos names typ vs _ _ => by
    simp only [leftOpen, renNode, List.map_eq_nil_iff, handledSpec_ren]
    split
    · exact .nil
    · split
      · exact samePath_dropLast (.cons (hs _ _) (leftOpenList_ren vs))
      · exact .cons (hs _ _) .nil
  | .genDecl tok specs _ => by
    simp only [leftOpen, renNode]
    split
    · exact leftOpenList_ren specs
    · exact .nil
  | .field .. => .nil
  | .ident _ => .nil
  | .selector x _ => leftOpen_ren x
  | .star x => leftOpen_ren x
  | .paren x => leftOpen_ren x
  | .index x is => samePath_append (leftOpen_ren x) (leftOpenList_ren is)
  | .unary x => leftOpen_ren x
  | .arrayT len elt => samePath_append (leftOpenList_ren len) (leftOpen_ren elt)
  | .mapT k v => samePath_append (leftOpen_ren k) (leftOpen_ren v)
  | .chanT v => leftOpen_ren v
  | .funcT tps ps rs => samePath_append (leftOpenList_ren tps) (samePath_append (leftOpenList_ren ps) (leftOpenList_ren rs))
  | .structT fs => leftOpenList_ren fs
  | .ifaceT ms => leftOpenList_ren ms
  | .block ss => leftOpenList_ren ss
  | .importSpec .. => .nil
  | .typeSpec _ tps typ _ => samePath_append (leftOpenList_ren tps) (leftOpen_ren typ)
  | .funcDecl recv _ typ body _ _ _ => samePath_append (leftOpenList_ren recv) (samePath_append (leftOpen_ren typ) (leftOpenList_ren body))
  | .badDecl => .nil
  | .file _ decls => leftOpenList_ren decls
  | .other cs => leftOpenList_ren cs

theorem leftOpenList_ren : ∀ ns : List Node, List.Forall₂ SamePath (leftOpenList sname ns) (leftOpenList sname' (renNodes ρ ns))
  | [] => .nil
  | n :: ns => samePath_append (leftOpen_ren n) (leftOpenList_ren ns)

end

theorem VarDeclares.ren {key key' : Node → Str} {o : List Descriptor} {n : Node} {i : Ident} {ds : List Descriptor} {q : Nat}
    (h : VarDeclares key sname o n i ds q) : ∀ o', List.Forall₂ SamePath o o' → (∀ m, Below n m → key' (renNode ρ m) = key m) →
      ∃ ds', List.Forall₂ SamePath ds ds' ∧ VarDeclares key' sname' o' (renNode ρ n) (renIdent ρ i) ds' (ρ.pos q) := by
  induction h with
  | name hi => exact fun o' ho _ => ⟨_, samePath_append ho (samePath_refl _), .name (List.mem_map_of_mem hi)⟩
  | inType hne ht hopen _ ih =>
    intro o' ho hk
    obtain ⟨ds', h1, h2⟩ := ih _ (samePath_append ho (.cons (hs _ _) .nil)) fun m hm => hk m (.child (by simp [children, ht]) hm)
    refine ⟨ds', h1, .inType (by simpa using hne) (mem_renNodes ht) ?_ h2⟩
    exact head_ren hopen
  | inValue hne hh hvs _ ih =>
    intro o' ho hk
    obtain ⟨ds', h1, h2⟩ := ih _ (samePath_append ho (.cons (hs _ _) (leftOpenList_ren hs _)))
      fun m hm => hk m (.child (by simp [children, hvs]) hm)
    refine ⟨ds', h1, .inValue (by simpa using hne) (by rw [handledSpec_ren]; exact hh) (by rw [hvs, renNodes_append]; rfl) h2⟩
  | decl ht hsp _ ih =>
    intro o' ho hk
    obtain ⟨ds', h1, h2⟩ := ih _ (samePath_append ho (leftOpenList_ren hs _)) fun m hm => hk m (.child (by simp [children, hsp]) hm)
    exact ⟨ds', h1, .decl ht (by rw [hsp, renNodes_append]; rfl) h2⟩
  | named hi => exact fun o' ho _ => ⟨_, samePath_append ho (samePath_refl _), .named (List.mem_map_of_mem hi)⟩
  | embedded he => exact fun o' ho _ => ⟨_, samePath_append ho (samePath_refl _), .embedded (EmbeddedName.ren he)⟩
  | anon hne hr hk0 hf _ ih =>
    rename_i o pos names typ d c lit f i p q _
    intro o' ho hk
    have hl : Below (.field pos names typ d c) lit := .child (by simp [children]) (Reaches.below hr)
    have e := hk lit hl
    obtain ⟨ds', h1, h2⟩ := ih _ (samePath_append ho (samePath_refl _)) fun m hm => hk m (Below.trans hl (.child (HasField.below hf) hm))
    exact ⟨ds', h1, .anon (by simpa using hne) (Reaches.ren hr) (by rw [e]; exact hk0) (HasField.ren hf) (by rw [e]; exact h2)⟩
  | descend hp hc _ ih =>
    intro o' ho hk
    obtain ⟨ds', h1, h2⟩ := ih _ (samePath_append ho (leftOpenList_ren hs _)) fun m hm => hk m (.child (by simp [hc]) hm)
    exact ⟨ds', h1, .descend (by rw [isPlain_ren]; exact hp) (by rw [children_ren, hc, renNodes_append]; rfl) h2⟩

end

theorem scopeName_ren (position position' : Nat → Position) (pos : Nat) (names : List Ident) :
    SamePath ⟨specScopeName position pos names, .metadesc⟩
      ⟨specScopeName position' (ρ.pos pos) (names.map (renIdent ρ)), .metadesc⟩ := by
  unfold specScopeName
  by_cases h : names.length = 1
  · simp only [h, List.length_map, dite_true, List.getElem_map]
    exact .inl rfl
  · simp only [h, List.length_map, dite_false]
    exact .inr ⟨⟨rfl, _, List.append_assoc _ _ _⟩, ⟨rfl, _, List.append_assoc _ _ _⟩⟩

/-- What a declaration declares, it declares at another place too; only names of places in the path differ. -/
theorem DeclaredBy.ren {env env' : PkgEnv} {d : Node} {i : Ident} {ds : List Descriptor} {q : Nat} (h : DeclaredBy env d i ds q)
    (hpath : env'.pkgPath = env.pkgPath) (hk : ∀ n, Below d n → env'.anonKey (renNode ρ n) = env.anonKey n) :
    ∃ ds', List.Forall₂ SamePath ds ds' ∧ DeclaredBy env' (renNode ρ d) (renIdent ρ i) ds' (ρ.pos q) := by
  cases h with
  | typ h =>
    obtain ⟨tok, specs, doc, spec, hd, hsp, h⟩ := h
    simp only [List.mem_singleton] at hd
    subst hd
    refine ⟨ds, samePath_refl _, .typ ⟨tok, _, doc, renNode ρ spec, List.mem_singleton.2 rfl, mem_renNodes hsp, ?_⟩⟩
    rw [hpath]
    exact TypeSpecDeclares.ren h fun n hn => hk n (.child hsp hn)
  | func hd h =>
    simp only [List.mem_singleton] at hd
    subst hd
    exact ⟨ds, samePath_refl _, .func (List.mem_singleton.2 rfl) (by rw [hpath]; exact FuncDeclares.ren h)⟩
  | var hd ht h =>
    simp only [List.mem_singleton] at hd
    subst hd
    obtain ⟨ds', h1, h2⟩ := VarDeclares.ren (scopeName_ren env.position env'.position) h [⟨env'.pkgPath, .nspace⟩]
      (by rw [hpath]; exact samePath_refl _) hk
    exact ⟨ds', h1, .var (List.mem_singleton.2 rfl) ht h2⟩

theorem DeclaredBy.package {env : PkgEnv} {d : Node} {i : Ident} {ds : List Descriptor} {q : Nat} (h : DeclaredBy env d i ds q)
    {decls : List Node} (hd : d ∈ decls) : DeclsDeclare env decls i ds q := by
  cases h with
  | typ h =>
    obtain ⟨tok, specs, doc, spec, h1, h2⟩ := h
    simp only [List.mem_singleton] at h1
    exact .typ ⟨tok, specs, doc, spec, h1 ▸ hd, h2⟩
  | func h1 h => simp only [List.mem_singleton] at h1; exact .func (h1 ▸ hd) h
  | var h1 ht h => simp only [List.mem_singleton] at h1; exact .var (h1 ▸ hd) ht h

/-- Everything that a list of declarations declares, one of them declares. -/
theorem declaredBy_of {env : PkgEnv} {i : Ident} {ds : List Descriptor} {q : Nat} {decls : List Node} (h : DeclsDeclare env decls i ds q) :
    ∃ d ∈ decls, DeclaredBy env d i ds q := by
  cases h with
  | typ h =>
    obtain ⟨tok, specs, doc, spec, h1, h2⟩ := h
    exact ⟨_, h1, .typ ⟨tok, specs, doc, spec, List.mem_singleton.2 rfl, h2⟩⟩
  | func h1 h => exact ⟨_, h1, .func (List.mem_singleton.2 rfl) h⟩
  | var h1 ht h => exact ⟨_, h1, .var (List.mem_singleton.2 rfl) ht h⟩

/-! ## Entities with a name of their own -/

theorem mem_renNodes_iff {ns : List Node} {n' : Node} : n' ∈ renNodes ρ ns ↔ ∃ n ∈ ns, renNode ρ n = n' := by
  rw [renNodes_map, List.mem_map]

theorem HasField.back {t f' : Node} (h : HasField (renNode ρ t) f') : ∃ f, f' = renNode ρ f ∧ HasField t f := by
  cases t with
  | structT fs =>
    cases h with
    | struct h =>
      obtain ⟨f, hf, rfl⟩ := mem_renNodes_iff.1 h
      exact ⟨f, rfl, .struct hf⟩
  | ifaceT fs =>
    cases h with
    | iface h =>
      obtain ⟨f, hf, rfl⟩ := mem_renNodes_iff.1 h
      exact ⟨f, rfl, .iface hf⟩
  | _ => cases h

theorem field_back {n : Node} {pos' : Nat} {names' : List Ident} {typ' : Node} {dd c : Str} (h : Node.field pos' names' typ' dd c = renNode ρ n) :
    ∃ pos names typ, n = .field pos names typ dd c ∧ names' = names.map (renIdent ρ) ∧ typ' = renNode ρ typ := by
  cases n <;> simp only [renNode, reduceCtorEq, Node.field.injEq] at h
  obtain ⟨_, h1, h2, rfl, rfl⟩ := h
  exact ⟨_, _, _, rfl, h1, h2⟩

theorem Reaches.back {t' l' : Node} (h : Reaches t' l') : ∀ t, t' = renNode ρ t → ∃ l, l' = renNode ρ l ∧ Reaches t l := by
  induction h with
  | struct fs => intro t e; cases t <;> simp only [renNode, reduceCtorEq] at e; exact ⟨_, by rw [e, renNode], .struct _⟩
  | iface fs => intro t e; cases t <;> simp only [renNode, reduceCtorEq] at e; exact ⟨_, by rw [e, renNode], .iface _⟩
  | mapKey _ ih =>
    intro t e; cases t <;> simp only [renNode, reduceCtorEq, Node.mapT.injEq] at e
    obtain ⟨l, h1, h2⟩ := ih _ e.1
    exact ⟨l, h1, .mapKey h2⟩
  | mapValue _ ih =>
    intro t e; cases t <;> simp only [renNode, reduceCtorEq, Node.mapT.injEq] at e
    obtain ⟨l, h1, h2⟩ := ih _ e.2
    exact ⟨l, h1, .mapValue h2⟩
  | array _ ih =>
    intro t e; cases t <;> simp only [renNode, reduceCtorEq, Node.arrayT.injEq] at e
    obtain ⟨l, h1, h2⟩ := ih _ e.2
    exact ⟨l, h1, .array h2⟩
  | star _ ih =>
    intro t e; cases t <;> simp only [renNode, reduceCtorEq, Node.star.injEq] at e
    obtain ⟨l, h1, h2⟩ := ih _ e
    exact ⟨l, h1, .star h2⟩

theorem MemberType.back {isI : Bool} {t' l' : Node} (h : MemberType isI t' l') :
    ∀ t, t' = renNode ρ t → ∃ l, l' = renNode ρ l ∧ MemberType isI t l ∧ Below t l := by
  induction h with
  | named hf hne hr =>
    rintro t rfl
    obtain ⟨f, e, hf1⟩ := HasField.back hf
    obtain ⟨pos, names, typ, rfl, rfl, rfl⟩ := field_back e
    obtain ⟨l, rfl, hr1⟩ := Reaches.back hr _ rfl
    exact ⟨l, rfl, .named hf1 (by rintro rfl; exact hne rfl) hr1, .child (HasField.below hf1) (.child (by simp [children]) (Reaches.below hr1))⟩
  | embeddedLit hI hf _ ih =>
    rintro t rfl
    obtain ⟨f, e, hf1⟩ := HasField.back hf
    obtain ⟨pos, names, typ, rfl, hn, rfl⟩ := field_back e
    obtain ⟨l, rfl, h1, h2⟩ := ih _ rfl
    have hn : names = [] := by simpa using hn.symm
    subst hn
    exact ⟨l, rfl, .embeddedLit hI hf1 h1, .child (HasField.below hf1) (.child (by simp [children]) h2)⟩

theorem NoTwins.ren {key key' : Node → Str} {isI : Bool} {t : Node} (h : NoTwins key isI t) :
    (∀ n, Below t n → key' (renNode ρ n) = key n) → NoTwins key' isI (renNode ρ t) := by
  induction h with
  | mk h1 _ ih =>
    intro hk
    refine .mk ?_ ?_
    · intro a b ha hb e
      obtain ⟨a, rfl, ha, ha'⟩ := MemberType.back ha _ rfl
      obtain ⟨b, rfl, hb, hb'⟩ := MemberType.back hb _ rfl
      rw [hk a ha', hk b hb'] at e
      rw [h1 a b ha hb e]
    · intro l hl
      obtain ⟨l, rfl, hl, hl'⟩ := MemberType.back hl _ rfl
      exact ih l hl fun n hn => hk n (Below.trans hl' hn)

theorem valueSpec_back {n : Node} {pos' : Nat} {names' : List Ident} {typ' vs' : List Node} {dd c : Str}
    (h : Node.valueSpec pos' names' typ' vs' dd c = renNode ρ n) :
    ∃ pos names typ vs, n = .valueSpec pos names typ vs dd c ∧ names' = names.map (renIdent ρ) ∧ typ' = renNodes ρ typ ∧ vs' = renNodes ρ vs := by
  cases n <;> simp only [renNode, reduceCtorEq, Node.valueSpec.injEq] at h
  obtain ⟨_, h1, h2, h3, rfl, rfl⟩ := h
  exact ⟨_, _, _, _, rfl, h1, h2, h3⟩

theorem HandledTypes.ren {n : Node} (h : HandledTypes n) : HandledTypes (renNode ρ n) := by
  induction h with
  | mk _ h2 ih =>
    rename_i n _
    refine .mk ?_ ?_
    · intro c hc
      rw [children_ren] at hc
      obtain ⟨c, hc1, rfl⟩ := mem_renNodes_iff.1 hc
      exact ih c hc1
    · intro pos names t ts vs d c e hne
      obtain ⟨pos, names, typ, vs, rfl, rfl, ht, rfl⟩ := valueSpec_back e.symm
      cases typ with
      | nil => simp [renNodes] at ht
      | cons t ts =>
        simp only [renNodes, List.cons.injEq] at ht
        obtain ⟨rfl, rfl⟩ := ht
        exact (h2 pos names t ts vs d c rfl (by rintro rfl; exact hne rfl)).imp OpaqueVarType.ren OpenVarType.ren

theorem topLevel_one {d x : Node} : TopLevel [.file ⟨0, [], 0⟩ [d]] x ↔ x = d := by
  constructor
  · rintro ⟨name, decls, h, h'⟩
    simp only [List.mem_singleton, Node.file.injEq] at h
    obtain ⟨_, rfl⟩ := h
    exact List.mem_singleton.1 h'
  · rintro rfl
    exact ⟨_, _, List.mem_singleton.2 rfl, List.mem_singleton.2 rfl⟩

theorem DeclaresType.ren {d : Node} {n : Ident} {typ : Node} (h : DeclaresType [.file ⟨0, [], 0⟩ [d]] n typ) :
    DeclaresType [.file ⟨0, [], 0⟩ [renNode ρ d]] (renIdent ρ n) (renNode ρ typ) ∧ Below d typ := by
  obtain ⟨tok, specs, doc, tps, own, hd, hs⟩ := h
  rw [topLevel_one] at hd
  subst hd
  exact ⟨⟨tok, _, doc, renNodes ρ tps, own, topLevel_one.2 rfl, mem_renNodes (ρ := ρ) hs⟩, .child hs (.child (by simp [children]) (.refl _))⟩

/-- An entity with a name of its own has the same name, and is named in the same way, when its declaration is at another place. -/
theorem NamedBy1.ren {env env' : PkgEnv} {d : Node} {i : Ident} {ds : List Descriptor} (h : NamedBy1 env d i ds)
    (hpath : env'.pkgPath = env.pkgPath) (hk : ∀ n, Below d n → env'.anonKey (renNode ρ n) = env.anonKey n) :
    NamedBy1 env' (renNode ρ d) (renIdent ρ i) ds := by
  cases h with
  | typ h hn => exact hpath ▸ .typ (DeclaresType.ren h).1 hn
  | value h hn =>
    obtain ⟨tok, pre, pos, names, typ, vs, own, c, post, doc, hd, ht, hi, hp⟩ := h
    rw [topLevel_one] at hd
    subst hd
    refine hpath ▸ .value ⟨tok, renNodes ρ pre, ρ.pos pos, names.map (renIdent ρ), renNodes ρ typ, renNodes ρ vs, own, c, renNodes ρ post, doc,
      topLevel_one.2 ?_, ht, List.mem_map_of_mem hi, ?_⟩ hn
    · simp only [renNode, renNodes_append, renNodes]
    · intro s hs
      obtain ⟨s, hs1, rfl⟩ := mem_renNodes_iff.1 hs
      exact HandledTypes.ren (hp s hs1)
  | func h hn hi =>
    obtain ⟨typ, body, a, b, doc, hd⟩ := h
    rw [topLevel_one] at hd
    subst hd
    exact hpath ▸ .func ⟨_, _, _, _, _, topLevel_one.2 rfl⟩ hn hi
  | method h hb hn =>
    obtain ⟨pos, names, recv, fd, fc, rest, typ, body, a, b, doc, hd, hr⟩ := h
    rw [topLevel_one] at hd
    subst hd
    exact hpath ▸ .method ⟨_, _, _, _, _, _, _, _, _, _, _, topLevel_one.2 rfl, RecvExprBase.ren hr⟩ hb hn
  | member h hn ht hm hi =>
    obtain ⟨h1, h2⟩ := DeclaresType.ren (ρ := ρ) h
    have hk' := fun n hn => hk n (Below.trans h2 hn)
    refine .member h1 hn ?_ ?_ hi
    · rw [isIfaceBody_ren]; exact NoTwins.ren ht hk'
    · rw [isIfaceBody_ren, hpath]; exact Member.ren hm hk'

theorem NamedBy1.package {env : PkgEnv} {d : Node} {i : Ident} {ds : List Descriptor} (h : NamedBy1 env d i ds) {files : List Node}
    (hd : TopLevel files d) : NamedEntity env files i ds := by
  have up : ∀ {x}, TopLevel [.file ⟨0, [], 0⟩ [d]] x → TopLevel files x := fun hx => topLevel_one.1 hx ▸ hd
  have upT : ∀ {n typ}, DeclaresType [.file ⟨0, [], 0⟩ [d]] n typ → DeclaresType files n typ := by
    rintro n typ ⟨tok, specs, doc, tps, own, h1, h2⟩
    exact ⟨tok, specs, doc, tps, own, up h1, h2⟩
  cases h with
  | typ h hn => exact .typ (upT h) hn
  | value h hn =>
    obtain ⟨tok, pre, pos, names, typ, vs, own, c, post, doc, hd, h⟩ := h
    exact .value ⟨tok, pre, pos, names, typ, vs, own, c, post, doc, up hd, h⟩ hn
  | func h hn hi =>
    obtain ⟨typ, body, a, b, doc, hd⟩ := h
    exact .func ⟨typ, body, a, b, doc, up hd⟩ hn hi
  | method h hb hn =>
    obtain ⟨pos, names, recv, fd, fc, rest, typ, body, a, b, doc, hd, hr⟩ := h
    exact .method ⟨pos, names, recv, fd, fc, rest, typ, body, a, b, doc, up hd, hr⟩ hb hn
  | member h hn ht hm hi => exact .member (upT h) hn ht hm hi

/-- Every entity of a package with a name of its own is declared by one of the declarations. -/
theorem namedBy1_of {env : PkgEnv} {files : List Node} {i : Ident} {ds : List Descriptor} (h : NamedEntity env files i ds) :
    ∃ d, TopLevel files d ∧ NamedBy1 env d i ds := by
  have one : ∀ d : Node, TopLevel [.file ⟨0, [], 0⟩ [d]] d := fun d => topLevel_one.2 rfl
  cases h with
  | typ h hn =>
    obtain ⟨tok, specs, doc, tps, own, h1, h2⟩ := h
    exact ⟨_, h1, .typ ⟨tok, specs, doc, tps, own, one _, h2⟩ hn⟩
  | value h hn =>
    obtain ⟨tok, pre, pos, names, typ, vs, own, c, post, doc, hd, h⟩ := h
    exact ⟨_, hd, .value ⟨tok, pre, pos, names, typ, vs, own, c, post, doc, one _, h⟩ hn⟩
  | func h hn hi =>
    obtain ⟨typ, body, a, b, doc, hd⟩ := h
    exact ⟨_, hd, .func ⟨typ, body, a, b, doc, one _⟩ hn hi⟩
  | method h hb hn =>
    obtain ⟨pos, names, recv, fd, fc, rest, typ, body, a, b, doc, hd, hr⟩ := h
    exact ⟨_, hd, .method ⟨pos, names, recv, fd, fc, rest, typ, body, a, b, doc, one _, hr⟩ hb hn⟩
  | member h hn ht hm hi =>
    obtain ⟨tok, specs, doc, tps, own, h1, h2⟩ := h
    exact ⟨_, h1, .member ⟨tok, specs, doc, tps, own, one _, h2⟩ hn ht hm hi⟩

/-! ## Where names of places come from -/

/-- The descriptor is the scope of a spec below the node. -/
def ScopeIn (sname : Nat → List Ident → Str) (n : Node) (x : Descriptor) : Prop :=
  ∃ pos names typ vs own c, Below n (.valueSpec pos names typ vs own c) ∧ names ≠ [] ∧ x = ⟨sname pos names, .metadesc⟩

theorem leftOpen_child {sname : Nat → List Ident → Str} {n c : Node} {x : Descriptor} (h : ScopeIn sname c x) (hc : c ∈ children n) :
    ScopeIn sname n x := by
  obtain ⟨pos, names, typ, vs, own, cm, hb, h⟩ := h
  exact ⟨pos, names, typ, vs, own, cm, .child hc hb, h⟩

theorem leftOpen_below {sname : Nat → List Ident → Str} {n : Node} {ns : List Node} {x : Descriptor} (h : ∃ m ∈ ns, ScopeIn sname m x)
    (hc : ∀ c ∈ ns, c ∈ children n) : ScopeIn sname n x := by
  obtain ⟨m, hm, h⟩ := h
  exact leftOpen_child h (hc m hm)

mutual

theorem leftOpen_specs (sname : Nat → List Ident → Str) : ∀ (n : Node), ∀ x ∈ leftOpen sname n, ScopeIn sname n x
  | .valueSpec pos names typ vs own c, x, hx => by
    simp only [leftOpen] at hx
    by_cases hne : names = []
    · simp [hne] at hx
    · simp only [hne, if_false] at hx
      have here : x = ⟨sname pos names, .metadesc⟩ → ScopeIn sname (.valueSpec pos names typ vs own c) x :=
        fun e => ⟨pos, names, typ, vs, own, c, .refl _, hne, e⟩
      split at hx
      · rcases List.mem_cons.1 (List.dropLast_subset _ hx) with e | hx
        · exact here e
        · exact leftOpen_below (leftOpenList_specs sname vs x hx) fun c hc => by simp [children, hc]
      · exact here (List.mem_singleton.1 hx)
  | .genDecl tok specs doc, x, hx => by
    simp only [leftOpen] at hx
    split at hx
    · exact leftOpen_below (leftOpenList_specs sname specs x hx) fun c hc => by simpa [children] using hc
    · cases hx
  | .field .., x, hx => nomatch hx
  | .ident _, x, hx => nomatch hx
  | .selector y _, x, hx => leftOpen_child (leftOpen_specs sname y x hx) (by simp [children])
  | .star y, x, hx => leftOpen_child (leftOpen_specs sname y x hx) (by simp [children])
  | .paren y, x, hx => leftOpen_child (leftOpen_specs sname y x hx) (by simp [children])
  | .index y is, x, hx => by
    rcases List.mem_append.1 hx with hx | hx
    · exact leftOpen_child (leftOpen_specs sname y x hx) (by simp [children])
    · exact leftOpen_below (leftOpenList_specs sname is x hx) fun c hc => by simp [children, hc]
  | .unary y, x, hx => leftOpen_child (leftOpen_specs sname y x hx) (by simp [children])
  | .arrayT len elt, x, hx => by
    rcases List.mem_append.1 hx with hx | hx
    · exact leftOpen_below (leftOpenList_specs sname len x hx) fun c hc => by simp [children, hc]
    · exact leftOpen_child (leftOpen_specs sname elt x hx) (by simp [children])
  | .mapT k v, x, hx => by
    rcases List.mem_append.1 hx with hx | hx
    · exact leftOpen_child (leftOpen_specs sname k x hx) (by simp [children])
    · exact leftOpen_child (leftOpen_specs sname v x hx) (by simp [children])
  | .chanT y, x, hx => leftOpen_child (leftOpen_specs sname y x hx) (by simp [children])
  | .funcT tps ps rs, x, hx => by
    rcases List.mem_append.1 hx with hx | hx
    · exact leftOpen_below (leftOpenList_specs sname tps x hx) fun c hc => by simp [children, hc]
    · rcases List.mem_append.1 hx with hx | hx
      · exact leftOpen_below (leftOpenList_specs sname ps x hx) fun c hc => by simp [children, hc]
      · exact leftOpen_below (leftOpenList_specs sname rs x hx) fun c hc => by simp [children, hc]
  | .structT fs, x, hx => leftOpen_below (leftOpenList_specs sname fs x hx) fun c hc => by simp [children, hc]
  | .ifaceT ms, x, hx => leftOpen_below (leftOpenList_specs sname ms x hx) fun c hc => by simp [children, hc]
  | .block ss, x, hx => leftOpen_below (leftOpenList_specs sname ss x hx) fun c hc => by simp [children, hc]
  | .importSpec .., x, hx => nomatch hx
  | .typeSpec _ tps typ _, x, hx => by
    rcases List.mem_append.1 hx with hx | hx
    · exact leftOpen_below (leftOpenList_specs sname tps x hx) fun c hc => by simp [children, hc]
    · exact leftOpen_child (leftOpen_specs sname typ x hx) (by simp [children])
  | .funcDecl recv _ typ body _ _ _, x, hx => by
    rcases List.mem_append.1 hx with hx | hx
    · exact leftOpen_below (leftOpenList_specs sname recv x hx) fun c hc => by simp [children, hc]
    · rcases List.mem_append.1 hx with hx | hx
      · exact leftOpen_child (leftOpen_specs sname typ x hx) (by simp [children])
      · exact leftOpen_below (leftOpenList_specs sname body x hx) fun c hc => by simp [children, hc]
  | .badDecl, x, hx => nomatch hx
  | .file _ decls, x, hx => leftOpen_below (leftOpenList_specs sname decls x hx) fun c hc => by simp [children, hc]
  | .other cs, x, hx => leftOpen_below (leftOpenList_specs sname cs x hx) fun c hc => by simp [children, hc]

theorem leftOpenList_specs (sname : Nat → List Ident → Str) : ∀ (ns : List Node), ∀ x ∈ leftOpenList sname ns, ∃ n ∈ ns, ScopeIn sname n x
  | [], x, hx => nomatch hx
  | n :: ns, x, hx => by
    rcases List.mem_append.1 hx with hx | hx
    · exact ⟨n, List.mem_cons_self .., leftOpen_specs sname n x hx⟩
    · obtain ⟨m, hm, h⟩ := leftOpenList_specs sname ns x hx
      exact ⟨m, List.mem_cons_of_mem _ hm, h⟩

end
/-- Meta descriptors in the paths of variables are scopes of specs. -/
theorem VarDeclares.scopes {key : Node → Str} {sname : Nat → List Ident → Str} {o : List Descriptor} {n : Node} {i : Ident} {ds : List Descriptor}
    {q : Nat} (h : VarDeclares key sname o n i ds q) : ∀ x ∈ ds, x.suffix = .metadesc → x ∈ o ∨ ScopeIn sname n x := by
  have last : ∀ {o : List Descriptor} {m : Node} {j : Ident}, ∀ x ∈ o ++ [⟨j.name, .term⟩], x.suffix = .metadesc → x ∈ o ∨ ScopeIn sname m x := by
    intro o m j x hx hm
    rcases List.mem_append.1 hx with hx | hx
    · exact .inl hx
    · rw [List.mem_singleton.1 hx] at hm; cases hm
  induction h with
  | name => exact last
  | @inType o pos names typ t vs d c i p q hne ht _ _ ih =>
    intro x hx hm
    rcases ih x hx hm with h | h
    · rcases List.mem_append.1 h with h | h
      · exact .inl h
      · exact .inr ⟨pos, names, typ, vs, d, c, .refl _, hne, List.mem_singleton.1 h⟩
    · exact .inr (leftOpen_child h (by simp [children, ht]))
  | @inValue o pos names typ vs pre v post d c i p q hne _ hvs _ ih =>
    intro x hx hm
    rcases ih x hx hm with h | h
    · rcases List.mem_append.1 h with h | h
      · exact .inl h
      · rcases List.mem_cons.1 h with h | h
        · exact .inr ⟨pos, names, typ, vs, d, c, .refl _, hne, h⟩
        · exact .inr (leftOpen_below (leftOpenList_specs sname pre x h) fun c hc => by simp [children, hvs, hc])
    · exact .inr (leftOpen_child h (by simp [children, hvs]))
  | decl _ hsp _ ih =>
    intro x hx hm
    rcases ih x hx hm with h | h
    · rcases List.mem_append.1 h with h | h
      · exact .inl h
      · exact .inr (leftOpen_below (leftOpenList_specs sname _ x h) fun c hc => by simp [children, hsp, hc])
    · exact .inr (leftOpen_child h (by simp [children, hsp]))
  | named => exact last
  | embedded => exact last
  | anon _ hr _ hf _ ih =>
    intro x hx hm
    rcases ih x hx hm with h | h
    · rcases List.mem_append.1 h with h | h
      · exact .inl h
      · rw [List.mem_singleton.1 h] at hm; cases hm
    · obtain ⟨pos, names, typ, vs, own, cm, hb, h⟩ := h
      exact .inr ⟨pos, names, typ, vs, own, cm, .child (by simp [children]) (Below.trans (Reaches.below hr) (.child (HasField.below hf) hb)), h⟩
  | descend _ hc _ ih =>
    intro x hx hm
    rcases ih x hx hm with h | h
    · rcases List.mem_append.1 h with h | h
      · exact .inl h
      · exact .inr (leftOpen_below (leftOpenList_specs sname _ x h) fun c hc' => by simp [hc, hc'])
    · exact .inr (leftOpen_child h (by simp [hc]))

theorem Member.noMeta {key : Node → Str} {isI : Bool} {t : Node} {o : List Descriptor} {i : Ident} {ds : List Descriptor}
    (h : Member key isI t o i ds) (ho : ∀ x ∈ o, x.suffix ≠ .metadesc) : ∀ x ∈ ds, x.suffix ≠ .metadesc := by
  obtain ⟨r, rfl, hr⟩ := Member.extends h
  intro x hx
  simp only [List.mem_append, List.mem_singleton] at hx
  rcases hx with (hx | hx) | rfl
  · exact ho x hx
  · rw [hr x hx]; decide
  · exact nofun

end Verif
