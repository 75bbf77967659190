import Verif.Spec.Renaming
/-! # Renaming: the collecting visitors -/
namespace Verif
open Spec Index

variable {ρ : Renaming}

def renTable (ρ : Renaming) (t : Table) : Table := t.map fun e => (ρ.pos e.1, e.2)

def renState (ρ : Renaming) (st : VState) : VState := { st with table := renTable ρ st.table, warned := st.warned.map fun c => { c with pos := ρ.pos c.pos }, curDecl := st.curDecl.map fun p => match p with
  | .genDecl specs doc => .genDecl (renNodes ρ specs) doc
  | p => p }

def renParent (ρ : Renaming) : Parent → Parent
  | .genDecl specs doc => .genDecl (renNodes ρ specs) doc
  | p => p

theorem renState_eq (st : VState) : renState ρ st = ⟨st.scope, renTable ρ st.table, st.curDecl.map (renParent ρ),
    st.warned.map fun c => { c with pos := ρ.pos c.pos }⟩ := by
  unfold renState
  rcases st with ⟨s, t, _ | c, w⟩
  · rfl
  · cases c <;> rfl

theorem renNodes_map (ns : List Node) : renNodes ρ ns = ns.map (renNode ρ) := by
  induction ns with
  | nil => rfl
  | cons n ns ih => simp [renNodes, ih]

theorem lookup_ren {β γ : Type} (f : Nat → Nat) (hf : ∀ a b, f a = f b → a = b) (g : β → γ) (t : List (Nat × β)) (q : Nat) :
    (t.map fun e => (f e.1, g e.2)).lookup (f q) = (t.lookup q).map g := by
  induction t with
  | nil => rfl
  | cons e t ih =>
    obtain ⟨a, b⟩ := e
    simp only [List.map_cons, List.lookup_cons, ih]
    by_cases h : q = a
    · simp [h]
    · have h' : f q ≠ f a := fun h' => h (hf _ _ h')
      simp [beq_false_of_ne h, beq_false_of_ne h']

theorem table_get_ren (t : Table) (q : Nat) : (renTable ρ t).get (ρ.pos q) = t.get q := by
  have := lookup_ren ρ.pos ρ.pos_inj (id : SymInfo → SymInfo) t q
  simpa [renTable, Table.get] using this

theorem table_getSymbol_ren (t : Table) (q : Nat) : (renTable ρ t).getSymbol (ρ.pos q) = t.getSymbol q := by
  simp [Table.getSymbol, table_get_ren]

theorem table_put_ren (t : Table) (q : Nat) (s : SymInfo) : (renTable ρ t).put (ρ.pos q) s = renTable ρ (t.put q s) := by
  simp only [renTable, Table.put, List.map_cons, List.filter_map, List.cons.injEq, true_and]
  congr 1
  apply List.filter_congr
  intro e _
  simp only [Function.comp, bne, Bool.not_eq_eq_eq_not, Bool.not_not]
  by_cases h : e.1 = q
  · simp [h]
  · have h' : ρ.pos e.1 ≠ ρ.pos q := fun h' => h (ρ.pos_inj _ _ h')
    simp [beq_false_of_ne h, beq_false_of_ne h']

theorem table_conflict_ren (t : Table) (q : Nat) (s : SymInfo) :
    (renTable ρ t).conflict (ρ.pos q) s = (t.conflict q s).map fun c => { c with pos := ρ.pos c.pos } := by
  unfold Table.conflict
  rw [table_get_ren]
  cases t.get q with
  | none => rfl
  | some o => dsimp only; split <;> rfl

theorem table_set_ren (t : Table) (q : Nat) (s : SymInfo) : (renTable ρ t).set (ρ.pos q) s = renTable ρ (t.set q s) := by
  unfold Table.set
  rw [table_get_ren]
  cases t.get q with
  | none => exact table_put_ren t q s
  | some o => simp only; split
              · rfl
              · exact table_put_ren t q s

theorem ident_uid_iff (i j : Ident) : (renIdent ρ i).uid = (renIdent ρ j).uid ↔ i.uid = j.uid :=
  ⟨fun h => ρ.ident_inj _ _ h, fun h => by simp [renIdent, h]⟩

theorem hoverInSpecs_ren (doc : Str) (i : Ident) (specs : List Node) :
    hoverInSpecs doc (renIdent ρ i) (renNodes ρ specs) = hoverInSpecs doc i specs := by
  induction specs with
  | nil => rfl
  | cons s ss ih =>
    cases s <;> simp only [renNodes, renNode, hoverInSpecs, ih, ident_uid_iff]
    rename_i names _ _ _ _
    have : (names.map (renIdent ρ)).any (fun n => n.uid == (renIdent ρ i).uid) = names.any (fun n => n.uid == i.uid) := by
      rw [List.any_map]
      congr 1
      funext n
      rw [Bool.eq_iff_iff]
      simp only [Function.comp, beq_iff_eq, ident_uid_iff]
    rw [this]

theorem documentationOf_ren (p : Parent) (i : Ident) : documentationOf (renParent ρ p) (renIdent ρ i) = documentationOf p i := by
  have : extractHoverText (renParent ρ p) (renIdent ρ i) = extractHoverText p i := by
    cases p <;> simp only [renParent, extractHoverText, hoverInSpecs_ren, Parent.ownText]
  unfold documentationOf
  rw [this]
  cases p <;> rfl

theorem kind_ren (o : Option ObjData) : kindForObject (o.map (renData ρ)) = kindForObject o := by
  rcases o with _ | ⟨id, cls, name, pkg, pos⟩
  · rfl
  · rcases cls with _ | (u | u | _ | _) | _ | (_ | _ | _) | _ | _ | _ | _ <;> try rfl
    all_goals cases u <;> rfl

theorem newSymInfo_ren {e e' : PkgEnv} (h : RenamedEnv ρ e e') (sym : Str) (p : Parent) (i : Ident) :
    newSymInfo e' sym (renParent ρ p) (renIdent ρ i) = newSymInfo e sym p i := by
  have hd : e'.defs (renIdent ρ i).uid = (e.defs i.uid).map (renObj ρ) := h.defs i.uid
  unfold newSymInfo
  rw [hd, documentationOf_ren]
  cases hx : e.defs i.uid with
  | none => rfl
  | some o =>
    simp only [Option.map_some, h.signature]
    have := kind_ren (ρ := ρ) (some o.self)
    simp only [Option.map_some] at this
    show SymInfo.mk _ (kindForObject (some (renData ρ o.self))) _ _ _ = _
    rw [this]
    rfl

theorem fromDescriptors_ren {e e' : PkgEnv} (h : RenamedEnv ρ e e') (ds : List Descriptor) : e'.fromDescriptors ds = e.fromDescriptors ds := by
  unfold PkgEnv.fromDescriptors
  rw [h.module]

theorem register_ren {e e' : PkgEnv} (h : RenamedEnv ρ e e') (st : VState) (ds : List Descriptor) (p : Parent) (i : Ident) (q : Nat) :
    (renState ρ st).register e' ds (renParent ρ p) (renIdent ρ i) (ρ.pos q) = renState ρ (st.register e ds p i q) := by
  simp only [renState_eq, VState.register, newSymInfo_ren h, fromDescriptors_ren h, table_set_ren, table_conflict_ren, List.map_append]

theorem push_ren (st : VState) (n : Str) (s : Suffix) : (renState ρ st).push n s = renState ρ (st.push n s) := by
  simp only [renState_eq, VState.push]

theorem pop_ren (st : VState) : (renState ρ st).pop = renState ρ st.pop := by
  simp only [renState_eq, VState.pop]

theorem scope_ren (st : VState) : (renState ρ st).scope = st.scope := rfl

theorem getIdent_ren : ∀ n : Node, getIdentOfTypeExpr (renNode ρ n) = (getIdentOfTypeExpr n).map (renIdent ρ)
  | .ident i => rfl
  | .selector x sel => rfl
  | .star x => by simp only [renNode, getIdentOfTypeExpr]; exact getIdent_ren x
  | .index x _ => by simp only [renNode, getIdentOfTypeExpr]; exact getIdent_ren x
  | .unary x => by simp only [renNode, getIdentOfTypeExpr]; exact getIdent_ren x
  | .paren _ | .arrayT .. | .mapT .. | .chanT _ | .funcT .. | .structT _ | .ifaceT _ | .field .. | .block _ | .importSpec .. | .typeSpec ..
  | .valueSpec .. | .genDecl .. | .funcDecl .. | .badDecl | .file .. | .other _ => by simp [renNode, getIdentOfTypeExpr]

theorem foldl_ren {α β γ δ : Type} (f : β → α → β) (g : δ → γ → δ) (r : β → δ) (s : α → γ) (l : List α)
    (h : ∀ b, ∀ a ∈ l, g (r b) (s a) = r (f b a)) (b : β) : (l.map s).foldl g (r b) = r (l.foldl f b) := by
  induction l generalizing b with
  | nil => rfl
  | cons a l ih =>
    simp only [List.map_cons, List.foldl_cons]
    rw [h b a (by simp), ih (fun b a ha => h b a (by simp [ha]))]

theorem anonKey_structT {e e' : PkgEnv} (h : RenamedEnv ρ e e') (fs : List Node) :
    e'.anonKey (.structT (renNodes ρ fs)) = e.anonKey (.structT fs) := h.anonKey (.structT fs)

theorem anonKey_ifaceT {e e' : PkgEnv} (h : RenamedEnv ρ e e') (fs : List Node) :
    e'.anonKey (.ifaceT (renNodes ρ fs)) = e.anonKey (.ifaceT fs) := h.anonKey (.ifaceT fs)

section
variable {e e' : PkgEnv} (h : RenamedEnv ρ e e')
include h

theorem embedded_ren (st : VState) (doc comment : Str) (is : List Ident) (pos : Ident → Nat) (pos' : Ident → Nat)
    (hp : ∀ i, pos' (renIdent ρ i) = ρ.pos (pos i)) (sfx : Suffix) :
    (is.map (renIdent ρ)).foldl (fun st n => st.register e' (st.scope ++ [⟨n.name, sfx⟩]) (.field doc comment) n (pos' n)) (renState ρ st) =
      renState ρ (is.foldl (fun st n => st.register e (st.scope ++ [⟨n.name, sfx⟩]) (.field doc comment) n (pos n)) st) := by
  apply foldl_ren
  intro b a _
  rw [hp, ← register_ren h]
  rfl

mutual
theorem typeBody_ren (isI : Bool) : ∀ (n : Node) (st : VState), typeBody e' isI (renNode ρ n) (renState ρ st) = renState ρ (typeBody e isI n st)
  | .structT fs, st => by simp only [renNode, typeBody]; exact typeFields_ren isI fs st
  | .ifaceT fs, st => by simp only [renNode, typeBody]; exact typeFields_ren isI fs st
  | .ident _, st | .selector .., st | .star _, st | .paren _, st | .index .., st | .unary _, st | .arrayT .., st | .mapT .., st
  | .chanT _, st | .funcT .., st | .field .., st | .block _, st | .importSpec .., st | .typeSpec .., st
  | .valueSpec .., st | .genDecl .., st | .funcDecl .., st | .badDecl, st | .file .., st | .other _, st => by simp only [renNode, typeBody]
theorem typeField_ren (isI : Bool) : ∀ (n : Node) (st : VState), typeField e' isI (renNode ρ n) (renState ρ st) = renState ρ (typeField e isI n st)
  | .field _ [] typ doc comment, st => by
      simp only [renNode, typeField, List.map_nil]
      cases isI
      · simp only [Bool.false_eq_true, ↓reduceIte, getIdent_ren]
        exact embedded_ren h st doc comment _ (·.pos) (·.pos) (fun _ => rfl) .term
      · simp only [↓reduceIte]
        exact typeBody_ren true typ st
  | .field _ (n :: ns) typ doc comment, st => by
      simp only [renNode, typeField, List.map_cons]
      rw [← List.map_cons]
      apply foldl_ren (r := renState ρ)
      intro b a _
      rw [← typeAnon_ren isI typ]
      congr 1
      rw [← register_ren h]
      rfl
  | .ident _, st | .selector .., st | .star _, st | .paren _, st | .index .., st | .unary _, st | .arrayT .., st | .mapT .., st
  | .chanT _, st | .funcT .., st | .structT _, st | .ifaceT _, st | .block _, st | .importSpec .., st | .typeSpec .., st
  | .valueSpec .., st | .genDecl .., st | .funcDecl .., st | .badDecl, st | .file .., st | .other _, st => by simp only [renNode, typeField]
theorem typeAnon_ren (isI : Bool) : ∀ (n : Node) (st : VState), typeAnon e' isI (renNode ρ n) (renState ρ st) = renState ρ (typeAnon e isI n st)
  | .mapT k v, st => by simp only [renNode, typeAnon]; rw [typeAnon_ren isI k, typeAnon_ren isI v]
  | .arrayT _ elt, st => by simp only [renNode, typeAnon]; exact typeAnon_ren isI elt st
  | .star x, st => by simp only [renNode, typeAnon]; exact typeAnon_ren isI x st
  | .structT fs, st => by
      simp only [renNode, typeAnon, anonKey_structT h]
      split
      · rfl
      · rw [push_ren, typeFields_ren isI fs, pop_ren]
  | .ifaceT fs, st => by
      simp only [renNode, typeAnon, anonKey_ifaceT h]
      split
      · rfl
      · rw [push_ren, typeFields_ren isI fs, pop_ren]
  | .ident _, st | .selector .., st | .paren _, st | .index .., st | .unary _, st
  | .chanT _, st | .funcT .., st | .field .., st | .block _, st | .importSpec .., st | .typeSpec .., st
  | .valueSpec .., st | .genDecl .., st | .funcDecl .., st | .badDecl, st | .file .., st | .other _, st => by simp only [renNode, typeAnon]
theorem typeFields_ren (isI : Bool) : ∀ (ns : List Node) (st : VState),
    typeFields e' isI (renNodes ρ ns) (renState ρ st) = renState ρ (typeFields e isI ns st)
  | [], st => by simp only [renNodes, typeFields]
  | n :: ns, st => by simp only [renNodes, typeFields]; rw [typeField_ren isI n, typeFields_ren isI ns]
end

theorem typeSpec_ren (p : Parent) (isI : Bool) (n : Node) (st : VState) :
    typeSpec e' (renParent ρ p) isI (renNode ρ n) (renState ρ st) = renState ρ (typeSpec e p isI n st) := by
  cases n <;> simp only [renNode, typeSpec]
  rename_i name _ typ _
  have : (renIdent ρ name).name = name.name := rfl
  rw [this, push_ren, scope_ren]
  have := register_ren h (st.push name.name .typ) (st.push name.name .typ).scope p name name.pos
  rw [show (renIdent ρ name).pos = ρ.pos name.pos from rfl, this, typeBody_ren h, pop_ren]

theorem typeSpecs_ren (p : Parent) (ns : List Node) : ∀ (isI : Bool) (st : VState),
    typeSpecs e' (renParent ρ p) isI (renNodes ρ ns) (renState ρ st) = renState ρ (typeSpecs e p isI ns st) := by
  induction ns with
  | nil => intro isI st; simp only [renNodes, typeSpecs]
  | cons n ns ih =>
    intro isI st
    simp only [renNodes, typeSpecs]
    rw [← ih, ← typeSpec_ren h]
    cases n <;> try rfl
    rename_i typ _
    cases typ <;> rfl

theorem typeDecls_ren (ns : List Node) : ∀ (st : VState), typeDecls e' (renNodes ρ ns) (renState ρ st) = renState ρ (typeDecls e ns st) := by
  induction ns with
  | nil => intro st; simp only [renNodes, typeDecls]
  | cons n ns ih =>
    intro st
    cases n <;> simp only [renNodes, renNode, typeDecls, ih]
    rename_i specs doc
    have := typeSpecs_ren h (.genDecl specs doc) specs false st
    simp only [renParent] at this
    rw [this, ih]

end

theorem baseTypeName_ren : ∀ n : Node, baseTypeName (renNode ρ n) = baseTypeName n
  | .ident _ => rfl
  | .star x => by simp only [renNode, baseTypeName]; exact baseTypeName_ren x
  | .index x _ => by simp only [renNode, baseTypeName]; exact baseTypeName_ren x
  | .paren x => by simp only [renNode, baseTypeName]; exact baseTypeName_ren x
  | .selector .. | .unary _ | .arrayT .. | .mapT .. | .chanT _ | .funcT .. | .structT _ | .ifaceT _ | .field .. | .block _ | .importSpec .. | .typeSpec ..
  | .valueSpec .. | .genDecl .. | .funcDecl .. | .badDecl | .file .. | .other _ => by simp [renNode, baseTypeName]

theorem receiverTypeName_ren (ns : List Node) : receiverTypeName (renNodes ρ ns) = receiverTypeName ns := by
  rcases ns with _ | ⟨n, ns⟩
  · rfl
  · cases n <;> simp [renNodes, renNode, receiverTypeName, baseTypeName_ren]

section
variable {e e' : PkgEnv} (h : RenamedEnv ρ e e')
include h

theorem funcIface_ren (ms : List Node) (st : VState) :
    funcIface e' (renNodes ρ ms) (renState ρ st) = renState ρ (funcIface e ms st) := by
  unfold funcIface
  rw [renNodes_map]
  apply foldl_ren (r := renState ρ)
  intro b a _
  cases a <;> simp only [renNode]
  exact embedded_ren h b _ _ _ (·.pos) (·.pos) (fun _ => rfl) .method

mutual
theorem funcWalk_ren : ∀ (n : Node) (st : VState), funcWalk e' (renNode ρ n) (renState ρ st) = renState ρ (funcWalk e n st)
  | .funcDecl recv name typ _ _ _ doc, st => by
      simp only [renNode, funcWalk, receiverTypeName_ren]
      have key : ∀ st : VState, (funcWalk e' (renNode ρ typ)
          ((((renState ρ st).register e' ((renState ρ st).scope ++ [⟨(renIdent ρ name).name, .method⟩]) (.funcDecl doc) (renIdent ρ name)
            (renIdent ρ name).pos).push go!"func" .metadesc).push (renIdent ρ name).name .metadesc)).pop =
          renState ρ (funcWalk e typ (((st.register e (st.scope ++ [⟨name.name, .method⟩]) (.funcDecl doc) name
            name.pos).push go!"func" .metadesc).push name.name .metadesc)).pop := by
        intro st
        have := register_ren h st (st.scope ++ [⟨name.name, .method⟩]) (.funcDecl doc) name name.pos
        rw [show (renIdent ρ name).pos = ρ.pos name.pos from rfl, show (renIdent ρ name).name = name.name from rfl, scope_ren]
        rw [show Parent.funcDecl doc = renParent ρ (.funcDecl doc) from rfl, this, push_ren, push_ren, funcWalk_ren typ, pop_ren]
        rfl
      cases receiverTypeName recv with
      | none => exact key st
      | some r => simp only [push_ren]; exact key _
  | .funcT _ _ results, st => by simp only [renNode, funcWalk]; exact funcWalkList_ren results st
  | .block _, st => by simp only [renNode, funcWalk]
  | .ifaceT methods, st => by simp only [renNode, funcWalk]; exact funcIface_ren h methods st
  | .ident _, st => by simp only [renNode, funcWalk]
  | .selector x _, st => by simp only [renNode, funcWalk]; exact funcWalk_ren x st
  | .star x, st => by simp only [renNode, funcWalk]; exact funcWalk_ren x st
  | .paren x, st => by simp only [renNode, funcWalk]; exact funcWalk_ren x st
  | .index x is, st => by simp only [renNode, funcWalk]; rw [funcWalk_ren x, funcWalkList_ren is]
  | .unary x, st => by simp only [renNode, funcWalk]; exact funcWalk_ren x st
  | .arrayT len elt, st => by simp only [renNode, funcWalk]; rw [funcWalkList_ren len, funcWalk_ren elt]
  | .mapT k v, st => by simp only [renNode, funcWalk]; rw [funcWalk_ren k, funcWalk_ren v]
  | .chanT v, st => by simp only [renNode, funcWalk]; exact funcWalk_ren v st
  | .structT fields, st => by simp only [renNode, funcWalk]; exact funcWalkList_ren fields st
  | .field _ _ typ _ _, st => by simp only [renNode, funcWalk]; exact funcWalk_ren typ st
  | .importSpec _ _ _, st => by simp only [renNode, funcWalk]
  | .typeSpec _ tparams typ _, st => by simp only [renNode, funcWalk]; rw [funcWalkList_ren tparams, funcWalk_ren typ]
  | .valueSpec _ _ typ values _ _, st => by simp only [renNode, funcWalk]; rw [funcWalkList_ren typ, funcWalkList_ren values]
  | .genDecl _ specs _, st => by simp only [renNode, funcWalk]; exact funcWalkList_ren specs st
  | .badDecl, st => by simp only [renNode, funcWalk]
  | .file _ decls, st => by simp only [renNode, funcWalk]; exact funcWalkList_ren decls st
  | .other children, st => by simp only [renNode, funcWalk]; exact funcWalkList_ren children st
theorem funcWalkList_ren : ∀ (ns : List Node) (st : VState), funcWalkList e' (renNodes ρ ns) (renState ρ st) = renState ρ (funcWalkList e ns st)
  | [], st => by simp only [renNodes, funcWalkList]
  | n :: ns, st => by simp only [renNodes, funcWalkList]; rw [funcWalk_ren n, funcWalkList_ren ns]
end

end

theorem varTypeClass_ren (ns : List Node) : varTypeClass (renNodes ρ ns) = varTypeClass ns := by
  rcases ns with _ | ⟨n, ns⟩
  · rfl
  · cases n <;> simp [renNodes, renNode, varTypeClass]

section
variable {e e' : PkgEnv} (h : RenamedEnv ρ e e')
include h

theorem varScopeName_ren (pos : Nat) (ns : List Ident) : varScopeName e' (ρ.pos pos) (ns.map (renIdent ρ)) = varScopeName e pos ns := by
  rcases ns with _ | ⟨n, _ | ⟨m, ns⟩⟩ <;> simp [varScopeName, h.position, renIdent]

mutual
theorem varWalk_ren : ∀ (n : Node) (st : VState), varWalk e' (renNode ρ n) (renState ρ st) = renState ρ (varWalk e n st)
  | .genDecl tok specs doc, st => by
      simp only [renNode, varWalk]
      split
      · rw [← varWalkList_ren specs]; rfl
      · rfl
  | .valueSpec pos names typ values _ _, st => by
      simp only [renNode, varWalk, varScopeName_ren h, varTypeClass_ren, List.map_eq_nil_iff]
      have key : (names.map (renIdent ρ)).foldl (fun st n =>
          st.register e' (st.scope ++ [⟨n.name, .term⟩]) (st.curDecl.getD noParent) n n.pos) (renState ρ st) =
        renState ρ (names.foldl (fun st n => st.register e (st.scope ++ [⟨n.name, .term⟩]) (st.curDecl.getD noParent) n n.pos) st) := by
        apply foldl_ren (r := renState ρ)
        intro b a _
        rw [← register_ren h]
        have : (renState ρ b).curDecl.getD noParent = renParent ρ (b.curDecl.getD noParent) := by
          rw [renState_eq]
          cases b.curDecl <;> rfl
        rw [this]
        rfl
      rw [key]
      split
      · rfl
      · rw [push_ren]
        cases varTypeClass typ with
        | unhandled => rfl
        | skip => simp only; rw [varWalkList_ren values, pop_ren]
        | walk => simp only; rw [varWalkList_ren typ, varWalkList_ren values, pop_ren]
  | .field pos [] typ doc comment, st => by
      simp only [renNode, varWalk, List.map_nil, getIdent_ren]
      exact embedded_ren h st doc comment _ (fun _ => pos) (fun _ => ρ.pos pos) (fun _ => rfl) .term
  | .field pos (n :: ns) typ doc comment, st => by
      simp only [renNode, varWalk, List.map_cons]
      rw [← List.map_cons]
      apply foldl_ren (r := renState ρ)
      intro b a _
      rw [← varAnon_ren typ]
      congr 1
      rw [← register_ren h]
      rfl
  | .ident _, st => by simp only [renNode, varWalk]
  | .selector x _, st => by simp only [renNode, varWalk]; exact varWalk_ren x st
  | .star x, st => by simp only [renNode, varWalk]; exact varWalk_ren x st
  | .paren x, st => by simp only [renNode, varWalk]; exact varWalk_ren x st
  | .index x is, st => by simp only [renNode, varWalk]; rw [varWalk_ren x, varWalkList_ren is]
  | .unary x, st => by simp only [renNode, varWalk]; exact varWalk_ren x st
  | .arrayT len elt, st => by simp only [renNode, varWalk]; rw [varWalkList_ren len, varWalk_ren elt]
  | .mapT k v, st => by simp only [renNode, varWalk]; rw [varWalk_ren k, varWalk_ren v]
  | .chanT v, st => by simp only [renNode, varWalk]; exact varWalk_ren v st
  | .funcT tparams params results, st => by
      simp only [renNode, varWalk]; rw [varWalkList_ren tparams, varWalkList_ren params, varWalkList_ren results]
  | .structT fields, st => by simp only [renNode, varWalk]; exact varWalkList_ren fields st
  | .ifaceT methods, st => by simp only [renNode, varWalk]; exact varWalkList_ren methods st
  | .block stmts, st => by simp only [renNode, varWalk]; exact varWalkList_ren stmts st
  | .importSpec _ _ _, st => by simp only [renNode, varWalk]
  | .typeSpec _ tparams typ _, st => by simp only [renNode, varWalk]; rw [varWalkList_ren tparams, varWalk_ren typ]
  | .funcDecl recv _ typ body _ _ _, st => by
      simp only [renNode, varWalk]; rw [varWalkList_ren recv, varWalk_ren typ, varWalkList_ren body]
  | .badDecl, st => by simp only [renNode, varWalk]
  | .file _ decls, st => by simp only [renNode, varWalk]; exact varWalkList_ren decls st
  | .other children, st => by simp only [renNode, varWalk]; exact varWalkList_ren children st
theorem varAnon_ren : ∀ (n : Node) (st : VState), varAnon e' (renNode ρ n) (renState ρ st) = renState ρ (varAnon e n st)
  | .mapT k v, st => by simp only [renNode, varAnon]; rw [varAnon_ren k, varAnon_ren v]
  | .arrayT _ elt, st => by simp only [renNode, varAnon]; exact varAnon_ren elt st
  | .star x, st => by simp only [renNode, varAnon]; exact varAnon_ren x st
  | .structT fs, st => by
      simp only [renNode, varAnon, anonKey_structT h]
      split
      · rfl
      · rw [push_ren, varWalkList_ren fs, pop_ren]
  | .ifaceT fs, st => by
      simp only [renNode, varAnon, anonKey_ifaceT h]
      split
      · rfl
      · rw [push_ren, varWalkList_ren fs, pop_ren]
  | .ident _, st | .selector .., st | .paren _, st | .index .., st | .unary _, st
  | .chanT _, st | .funcT .., st | .field .., st | .block _, st | .importSpec .., st | .typeSpec .., st
  | .valueSpec .., st | .genDecl .., st | .funcDecl .., st | .badDecl, st | .file .., st | .other _, st => by simp only [renNode, varAnon]
theorem varWalkList_ren : ∀ (ns : List Node) (st : VState), varWalkList e' (renNodes ρ ns) (renState ρ st) = renState ρ (varWalkList e ns st)
  | [], st => by simp only [renNodes, varWalkList]
  | n :: ns, st => by simp only [renNodes, varWalkList]; rw [varWalk_ren n, varWalkList_ren ns]
end

theorem start_ren (t : Table) : (⟨newScope e'.pkgPath, renTable ρ t, none, []⟩ : VState) = renState ρ ⟨newScope e.pkgPath, t, none, []⟩ := by
  rw [renState_eq, h.pkgPath]
  rfl

theorem visitDecl_ren (n : Node) (t : Table) : visitDecl e' (renNode ρ n) (renTable ρ t) = (visitDecl e n t).map (renTable ρ) := by
  have hv := varWalk_ren h n ⟨newScope e.pkgPath, t, none, []⟩
  have hf := funcWalk_ren h n ⟨newScope e.pkgPath, t, none, []⟩
  rw [← start_ren h] at hv hf
  cases n with
  | genDecl tok specs doc =>
    cases tok <;> simp only [renNode, visitDecl, Option.map_some, Option.map_none]
    · simp only [renNode] at hv; rw [hv]; rfl
    · simp only [renNode] at hv; rw [hv]; rfl
  | funcDecl => simp only [renNode, visitDecl, Option.map_some] at hf ⊢; rw [hf]; rfl
  | _ => simp [renNode, visitDecl]

theorem visitDecls_ren (ns : List Node) : ∀ t : Table, visitDecls e' (renNodes ρ ns) (renTable ρ t) = (visitDecls e ns t).map (renTable ρ) := by
  induction ns with
  | nil => intro t; simp [renNodes, visitDecls]
  | cons n ns ih =>
    intro t
    simp only [renNodes, visitDecls, visitDecl_ren h]
    cases visitDecl e n t with
    | none => rfl
    | some t => simp [ih]

theorem visitSyntax_ren (n : Node) (t : Table) : visitSyntax e' (renNode ρ n) (renTable ρ t) = (visitSyntax e n t).map (renTable ρ) := by
  cases n <;> simp only [renNode, visitSyntax, Option.map_some]
  rw [start_ren h, typeDecls_ren h, ← visitDecls_ren h]
  rfl

theorem visitPackageSyntax_ren (ns : List Node) : ∀ t : Table,
    visitPackageSyntax e' (renNodes ρ ns) (renTable ρ t) = (visitPackageSyntax e ns t).map (renTable ρ) := by
  induction ns with
  | nil => intro t; simp [renNodes, visitPackageSyntax]
  | cons n ns ih =>
    intro t
    simp only [renNodes, visitPackageSyntax, visitSyntax_ren h]
    cases visitSyntax e n t with
    | none => rfl
    | some t => simp [ih]

end

end Verif
