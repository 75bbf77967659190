import Verif.Lemmas.Renaming
/-! # Renaming: lookup and the file visitor -/
namespace Verif
open Spec Index

variable {ρ : Renaming}

def renRecord (ρ : Renaming) (r : PkgRecord) : PkgRecord := ⟨r.module, renTable ρ r.table⟩

def renComposer (ρ : Renaming) (c : Composer) : Composer := { c with compositions := c.compositions.map fun e => (ρ.obj e.1, e.2) }

def renGlobal (ρ : Renaming) (g : Global) : Global :=
  ⟨g.symbols.map fun e => (e.1, renRecord ρ e.2), g.pkgSymbols, renComposer ρ g.composer, g.skipped⟩

theorem lookup_map {β γ : Type} (g : β → γ) (t : List (Str × β)) (k : Str) :
    (t.map fun e => (e.1, g e.2)).lookup k = (t.lookup k).map g := by
  induction t with
  | nil => rfl
  | cons e t ih =>
    obtain ⟨a, b⟩ := e
    simp only [List.map_cons, List.lookup_cons, ih]
    cases k == a <;> rfl

theorem symbols_ren (g : Global) (k : Str) : (renGlobal ρ g).symbols.lookup k = (g.symbols.lookup k).map (renRecord ρ) :=
  lookup_map _ _ _

theorem getSymbolInformation_ren (g : Global) (k : Str) (q : Nat) :
    (renGlobal ρ g).getSymbolInformation k (ρ.pos q) = g.getSymbolInformation k q := by
  unfold Global.getSymbolInformation
  rw [symbols_ren]
  cases g.symbols.lookup k with
  | none => rfl
  | some r => exact table_get_ren r.table q

theorem getSymbol_ren (g : Global) (k : Str) (q : Nat) : (renGlobal ρ g).getSymbol k (ρ.pos q) = g.getSymbol k q := by
  unfold Global.getSymbol
  rw [getSymbolInformation_ren]

theorem locateOwner_ren (scope : List ObjData) (field : Nat) :
    locateOwner (scope.map (renData ρ)) (ρ.obj field) = (locateOwner scope field).map (renData ρ) := by
  unfold locateOwner
  rw [List.find?_map]
  congr 1
  congr 1
  funext o
  rcases o with ⟨id, cls, name, pkg, pos⟩
  rcases cls with _ | (u | u | _ | _) | _ | _ | _ | _ | _ | _ <;> try rfl
  rcases u with fs | _ | _ <;> try rfl
  show (fs.map ρ.obj).contains (ρ.obj field) = fs.contains field
  rw [Bool.eq_iff_iff]
  simp only [List.contains_iff_mem, List.mem_map]
  constructor
  · rintro ⟨a, ha, h⟩
    rwa [← ρ.obj_inj _ _ h]
  · exact fun h => ⟨field, h, rfl⟩

theorem describe_ren {s s' : Scopes} (hs : ∀ path, s' path = (s path).map (renData ρ)) (pkg : Str) (o : ObjData) :
    describe s' pkg (renData ρ o) = describe s pkg o := by
  rcases o with ⟨id, cls, name, pk, pos⟩
  rcases cls with _ | (u | u | _ | _) | _ | (_ | _ | _) | (_ | _) | _ | _ | _ <;> try rfl
  simp only [describe, renData, renClass, hs, locateOwner_ren]
  cases locateOwner (s pkg) id <;> rfl

theorem canon_ren (o : Obj) : (renObj ρ o).canon = renData ρ o.canon := by
  rcases o with ⟨⟨id, cls, name, pk, pos⟩, b⟩
  rcases cls with _ | (u | u | _ | _) | _ | _ | _ | _ | _ | _ <;> rfl

theorem compose_ren {s s' : Scopes} (hs : ∀ path, s' path = (s path).map (renData ρ)) (c : Composer) (pkg : Option (Option ModIdent))
    (o : Option Obj) : (renComposer ρ c).compose s' pkg (o.map (renObj ρ)) = (renComposer ρ (c.compose s pkg o).1, (c.compose s pkg o).2) := by
  unfold Composer.compose
  rcases o with _ | o
  · rfl
  simp only [Option.map_some]
  have hp : (renObj ρ o).self.pkg = o.self.pkg := rfl
  rw [hp, canon_ren]
  cases o.self.pkg with
  | none => rfl
  | some path =>
    have hl : (renComposer ρ c).compositions.lookup (renData ρ o.canon).id = c.compositions.lookup o.canon.id := by
      have := lookup_ren ρ.obj ρ.obj_inj (id : Str → Str) c.compositions o.canon.id
      simpa [renComposer, renData] using this
    simp only [hl, describe_ren hs]
    cases c.compositions.lookup o.canon.id with
    | some x => rfl
    | none =>
      simp only
      split
      · rfl
      · rfl

theorem isErrorError_ren (o : ObjData) : isErrorError (renData ρ o) = isErrorError o := by
  rcases o with ⟨id, cls, name, pk, pos⟩
  rcases cls with _ | (u | u | _ | _) | _ | _ | _ | _ | _ | _ <;> rfl

theorem objId_ren (o : ObjData) : (renData ρ o).objId = o.objId := rfl

theorem lookup_tail {s s' : Scopes} (hs : ∀ path, s' path = (s path).map (renData ρ)) (g : Global) (o : Obj) (path : Str) :
    (match (testPackageCombinations path).findSome? (fun c => (renGlobal ρ g).getSymbolInformation c (renObj ρ o).self.pos) with
      | some info => (renGlobal ρ g, Found.info info)
      | none =>
        match (renGlobal ρ g).symbols.lookup path with
        | some r =>
          let (c, sym) := (renGlobal ρ g).composer.compose s' (some r.module) (some (renObj ρ o))
          if sym = [] then ({ renGlobal ρ g with composer := c }, .error)
          else ({ renGlobal ρ g with composer := c }, .info (composedInfo sym))
        | none => (renGlobal ρ g, .error)) =
    (let x := (match (testPackageCombinations path).findSome? (fun c => g.getSymbolInformation c o.self.pos) with
      | some info => (g, Found.info info)
      | none =>
        match g.symbols.lookup path with
        | some r =>
          let (c, sym) := g.composer.compose s (some r.module) (some o)
          if sym = [] then ({ g with composer := c }, .error)
          else ({ g with composer := c }, .info (composedInfo sym))
        | none => (g, .error)); (renGlobal ρ x.1, x.2)) := by
  have hf : (fun c => (renGlobal ρ g).getSymbolInformation c (renObj ρ o).self.pos) = fun c => g.getSymbolInformation c o.self.pos := by
    funext c
    exact getSymbolInformation_ren g c o.self.pos
  rw [hf, symbols_ren]
  cases (testPackageCombinations path).findSome? (fun c => g.getSymbolInformation c o.self.pos) with
  | some info => rfl
  | none =>
    cases g.symbols.lookup path with
    | none => rfl
    | some r =>
      have hc := compose_ren hs g.composer (some r.module) (some o)
      simp only [Option.map_some] at hc ⊢
      rw [show (renGlobal ρ g).composer = renComposer ρ g.composer from rfl, show (renRecord ρ r).module = r.module from rfl, hc]
      simp only
      by_cases h : (g.composer.compose s (some r.module) (some o)).2 = []
      · simp only [h, if_true]; rfl
      · simp only [h, if_false]; rfl

theorem getSymbolOfObject_ren {s s' : Scopes} (hs : ∀ path, s' path = (s path).map (renData ρ)) (g : Global) (o : Obj) :
    (renGlobal ρ g).getSymbolOfObject s' (renObj ρ o) = (renGlobal ρ (g.getSymbolOfObject s o).1, (g.getSymbolOfObject s o).2) := by
  have tail := fun path => lookup_tail hs g o path
  unfold Global.getSymbolOfObject
  have hid : (renObj ρ o).self.objId = o.self.objId := rfl
  have hsk : (renGlobal ρ g).skipped = g.skipped := rfl
  have hor : isErrorError (renObj ρ o).origin = isErrorError o.origin := isErrorError_ren o.origin
  have hpk : (renObj ρ o).self.pkg = o.self.pkg := rfl
  simp only [hid, hsk, hor, hpk]
  by_cases hm : o.self.objId ∈ g.skipped
  · simp only [hm, if_true]
  simp only [hm, if_false]
  have hc : (renObj ρ o).self.cls = renClass ρ o.self.cls := rfl
  rw [hc]
  cases hp : o.self.pkg with
  | none =>
    rcases o.self.cls with _ | (u | u | _ | _) | _ | _ | _ | _ | _ | _ <;> try rfl
    all_goals first | (simp only [renClass]; cases isErrorError o.origin <;> rfl)
  | some path =>
    by_cases hu : path = go!"unsafe"
    · rcases o.self.cls with _ | (u | u | _ | _) | _ | _ | _ | _ | _ | _ <;> simp only [renClass, hu, if_true]
    · rcases o.self.cls with _ | (u | u | _ | _) | _ | _ | _ | _ | _ | _ <;> simp only [renClass, hu, if_false] <;>
        exact tail path

/-! ## The file visitor -/

def renLocal (ρ : Renaming) (l : Local) : Local := ⟨l.symbol, renObj ρ l.obj⟩

def renF (ρ : Renaming) (st : FState) : FState :=
  ⟨st.locals.map fun e => (ρ.pos e.1, renLocal ρ e.2), st.occs, st.cur.map fun x => (ρ.ident x.1, ρ.pos x.2.1, ρ.pos x.2.2), renGlobal ρ st.global⟩

structure RenamedFileEnv (ρ : Renaming) (e e' : FileEnv) : Prop where
  pkg : RenamedEnv ρ e.pkg e'.pkg
  scopes : ∀ path, e'.scopes path = (e.scopes path).map (renData ρ)
  pkgTable : e'.pkgTable = renTable ρ e.pkgTable
  implicits : e'.implicits = e.implicits.map (renObj ρ)
  pkgNameOf : ∀ u, e'.pkgNameOf (ρ.ident u) = e.pkgNameOf u
  imports : e'.imports = e.imports

theorem quoted_ren (o : ObjData) : (renData ρ o).quotedPkgName = o.quotedPkgName := by
  rcases o with ⟨id, cls, name, pk, pos⟩
  rcases cls with _ | (u | u | _ | _) | _ | _ | _ | _ | _ | _ <;> rfl

/-- The distance of the end of an identifier to its start is kept. -/
def EndKept (ρ : Renaming) (i : Ident) : Prop := ρ.pos (i.pos + i.name.length) = ρ.pos i.pos + i.name.length

theorem localAt_ren (st : FState) (q : Nat) : (renF ρ st).localAt (ρ.pos q) = (st.localAt q).map (renLocal ρ) :=
  lookup_ren ρ.pos ρ.pos_inj (renLocal ρ) st.locals q

theorem createNewLocal_ren (st : FState) (q : Nat) (o : Obj) :
    (renF ρ st).createNewLocal (ρ.pos q) (renObj ρ o) = (st.createNewLocal q o).map fun x => (renF ρ x.1, x.2) := by
  unfold FState.createNewLocal
  rw [localAt_ren]
  cases st.localAt q with
  | some l => rfl
  | none => simp [renF, renLocal]

theorem emit_ren (st : FState) (x : Occurrence) : (renF ρ st).emit x = renF ρ (st.emit x) := rfl

section
variable {e e' : FileEnv} (h : RenamedFileEnv ρ e e')
include h

theorem caseClauses_ren (q : Nat) : e'.caseClauses (ρ.pos q) = (e.caseClauses q).map (renObj ρ) := by
  unfold FileEnv.caseClauses
  rw [h.implicits, ← List.map_reverse, List.find?_map]
  congr 1
  congr 1
  funext o
  rw [Bool.eq_iff_iff]
  simp only [Function.comp, beq_iff_eq]
  exact ⟨fun h => ρ.pos_inj _ _ h, fun h => by rw [← h]; rfl⟩

theorem identRange_ren (i : Ident) (hi : EndKept ρ i) (o : Obj) : identRange e' (renIdent ρ i) (renObj ρ o) = identRange e i o := by
  unfold identRange
  have h1 : e'.pkg.position (renIdent ρ i).pos = e.pkg.position i.pos := h.pkg.position i.pos
  have h2 : e'.pkg.position (renIdent ρ i).endPos = e.pkg.position i.endPos := by
    have := h.pkg.position i.endPos
    rw [← this]
    unfold Ident.endPos
    rw [hi]
    rfl
  rw [h1, h2]
  have : (renObj ρ o).self.quotedPkgName = o.self.quotedPkgName := quoted_ren o.self
  rw [this]

theorem enclosingRange_ren (st : FState) (i : Ident) : enclosingRange e' (renF ρ st) (renIdent ρ i) = enclosingRange e st i := by
  unfold enclosingRange
  have hd : e'.pkg.defs (renIdent ρ i).uid = (e.pkg.defs i.uid).map (renObj ρ) := h.pkg.defs i.uid
  rw [hd]
  rcases st with ⟨l, os, _ | ⟨u, a, b⟩, g⟩
  · rfl
  · simp only [renF, Option.map_some, h.pkg.position]
    have : (ρ.ident u = (renIdent ρ i).uid) ↔ u = i.uid := ⟨fun h => ρ.ident_inj _ _ h, fun h => by rw [h]; rfl⟩
    simp only [this]
    cases e.pkg.defs i.uid with
    | none => rfl
    | some o =>
      simp only [Option.map_some, Option.getD_some]
      have : (renObj ρ o).self.quotedPkgName = o.self.quotedPkgName := quoted_ren o.self
      rw [this]

theorem isDeprecatedAt_ren (st : FState) (q : Nat) : isDeprecatedAt e' (renF ρ st) (ρ.pos q) = isDeprecatedAt e st q := by
  unfold isDeprecatedAt
  rw [h.pkgTable, table_get_ren, h.pkg.pkgPath, show (renF ρ st).global = renGlobal ρ st.global from rfl, getSymbolInformation_ren]

theorem visitDef_ren (i : Ident) (hi : EndKept ρ i) (d : Obj) (st : FState) :
    visitDef e' (renIdent ρ i) (renObj ρ d) (renF ρ st) = (visitDef e i d st).map (renF ρ) := by
  unfold visitDef
  have hp : (renObj ρ d).self.pos = ρ.pos d.self.pos := rfl
  simp only [hp, h.pkgTable, table_getSymbol_ren, show (renF ρ st).global = renGlobal ρ st.global from rfl, h.pkg.pkgPath, getSymbol_ren,
    createNewLocal_ren, identRange_ren h i hi]
  cases e.pkgTable.getSymbol d.self.pos with
  | some s => simp only [Option.map_some, enclosingRange_ren h, isDeprecatedAt_ren h, emit_ren]
  | none =>
    simp only
    cases st.global.getSymbol e.pkg.pkgPath d.self.pos with
    | some s => simp only [Option.map_some, enclosingRange_ren h, isDeprecatedAt_ren h, emit_ren]
    | none =>
      simp only
      cases st.createNewLocal d.self.pos d with
      | none => rfl
      | some x => simp only [Option.map_some, enclosingRange_ren h, isDeprecatedAt_ren h, emit_ren]

theorem visitRef_ren (i : Ident) (hi : EndKept ρ i) (r : Obj) (st : FState) :
    visitRef e' (renIdent ρ i) (renObj ρ r) (renF ρ st) = (visitRef e i r st).map (renF ρ) := by
  unfold visitRef
  have hp : (renObj ρ r).self.pos = ρ.pos r.self.pos := rfl
  rw [hp, localAt_ren, show (renF ρ st).global = renGlobal ρ st.global from rfl, getSymbolOfObject_ren h.scopes]
  simp only [identRange_ren h i hi]
  cases st.localAt r.self.pos with
  | some l => rfl
  | none =>
    simp only [Option.map_none]
    cases (st.global.getSymbolOfObject e.scopes r).2 <;> rfl

theorem visitIdent_ren (i : Ident) (hi : EndKept ρ i) (st : FState) :
    visitIdent e' (renIdent ρ i) (renF ρ st) = (visitIdent e i st).map (renF ρ) := by
  unfold visitIdent
  have hp : (renIdent ρ i).pos = ρ.pos i.pos := rfl
  have hn : (renIdent ρ i).name = i.name := rfl
  have hd : e'.pkg.defs (renIdent ρ i).uid = (e.pkg.defs i.uid).map (renObj ρ) := h.pkg.defs i.uid
  have hu : e'.pkg.uses (renIdent ρ i).uid = (e.pkg.uses i.uid).map (renObj ρ) := h.pkg.uses i.uid
  rw [hp, hn, hd, hu, caseClauses_ren h]
  split
  · rfl
  cases e.caseClauses i.pos with
  | some o =>
    simp only [Option.map_some]
    rw [show (renObj ρ o).self.pos = ρ.pos o.self.pos from rfl, createNewLocal_ren]
    cases st.createNewLocal o.self.pos o with
    | none => rfl
    | some x => simp only [Option.map_some, identRange_ren h i hi, emit_ren]
  | none =>
    simp only [Option.map_none]
    have key : ∀ st : FState, (match (e.pkg.uses i.uid).map (renObj ρ) with
        | some r => visitRef e' (renIdent ρ i) r (renF ρ st)
        | none => some (renF ρ st)) = (match e.pkg.uses i.uid with
        | some r => visitRef e i r st
        | none => some st).map (renF ρ) := by
      intro st
      cases e.pkg.uses i.uid with
      | none => rfl
      | some r => exact visitRef_ren h i hi r st
    cases e.pkg.defs i.uid with
    | none => simp only [Option.map_none, Option.bind_some]; exact key st
    | some d =>
      simp only [Option.map_some, visitDef_ren h i hi]
      cases visitDef e i d st with
      | none => rfl
      | some st => simp only [Option.map_some, Option.bind_some]; exact key st

theorem emitImportReference_ren (q : Nat) (imported : Str) (st : FState) :
    emitImportReference e' (ρ.pos q) imported (renF ρ st) = renF ρ (emitImportReference e q imported st) := by
  unfold emitImportReference
  rw [h.pkg.position, show (renF ρ st).global.getPkgSymbol imported = st.global.getPkgSymbol imported from rfl]
  cases st.global.getPkgSymbol imported <;> rfl

theorem visitImport_ren (uid : Nat) (name : Option Ident) (q : Nat) (st : FState) :
    visitImport e' (ρ.ident uid) (name.map (renIdent ρ)) (ρ.pos q) (renF ρ st) = renF ρ (visitImport e uid name q st) := by
  unfold visitImport
  rw [h.pkgNameOf, h.imports]
  cases (e.pkgNameOf uid).bind e.imports with
  | none => rfl
  | some imported =>
    simp only
    rw [← emitImportReference_ren h]
    congr 1
    cases name with
    | none => rfl
    | some n =>
      simp only [Option.map_some, show (renIdent ρ n).name = n.name from rfl,
        show (renF ρ st).global.getPkgSymbol imported = st.global.getPkgSymbol imported from rfl]
      split
      · have : e'.pkg.position (renIdent ρ n).pos = e.pkg.position n.pos := h.pkg.position n.pos
        rw [this]
        cases st.global.getPkgSymbol imported <;> rfl
      · rfl

theorem selectorPkg_ren (n : Node) : selectorPkg e' (renNode ρ n) =
    (selectorPkg e n).map fun x => (renIdent ρ x.1, renObj ρ x.2.1, x.2.2) := by
  cases n <;> simp only [renNode, selectorPkg, Option.map_none]
  rename_i i
  have hu : e'.pkg.uses (renIdent ρ i).uid = (e.pkg.uses i.uid).map (renObj ρ) := h.pkg.uses i.uid
  rw [hu]
  cases e.pkg.uses i.uid with
  | none => rfl
  | some o =>
    simp only [Option.map_some]
    rw [show (renObj ρ o).self.cls = renClass ρ o.self.cls from rfl]
    rcases o.self.cls with _ | (u | u | _ | _) | _ | _ | _ | _ | _ | _ <;> rfl

omit h in
theorem selectorPkg_ident {n : Node} {i : Ident} {o : Obj} {q : Str} (hx : selectorPkg e n = some (i, o, q)) : i ∈ nodeIdents n := by
  cases n <;> simp only [selectorPkg, reduceCtorEq] at hx
  rename_i j
  simp only [nodeIdents, List.mem_singleton]
  split at hx
  · split at hx
    · simp only [Option.some.injEq, Prod.mk.injEq] at hx
      exact hx.1.symm
    · simp at hx
  · simp at hx

omit h in
theorem bind_ren {α : Type} {f g : FState → Option FState} (x : Option FState) (hf : ∀ st, g (renF ρ st) = (f st).map (renF ρ)) :
    (x.map (renF ρ)).bind g = (x.bind f).map (renF ρ) := by
  cases x with
  | none => rfl
  | some st => exact hf st

theorem visitIdents_ren (is : List Ident) : ∀ (st : FState), (∀ i ∈ is, EndKept ρ i) →
    visitIdents e' (is.map (renIdent ρ)) (renF ρ st) = (visitIdents e is st).map (renF ρ) := by
  induction is with
  | nil => intro st _; simp [visitIdents]
  | cons i is ih =>
    intro st hi
    simp only [List.map_cons, visitIdents]
    rw [visitIdent_ren h i (hi i (by simp))]
    exact bind_ren (α := Unit) _ fun st => ih st fun j hj => hi j (by simp [hj])

mutual
theorem fileWalk_ren : ∀ (n : Node) (st : FState), (∀ i ∈ nodeIdents n, EndKept ρ i) →
    fileWalk e' (renNode ρ n) (renF ρ st) = (fileWalk e n st).map (renF ρ)
  | .importSpec uid name q, st, _ => by simp only [renNode, fileWalk, Option.map_some]; rw [visitImport_ren h]
  | .selector x sel, st, hi => by
      simp only [renNode, fileWalk, selectorPkg_ren h]
      simp only [nodeIdents, List.mem_append, List.mem_singleton] at hi
      cases hs : selectorPkg e x with
      | none =>
        simp only [Option.map_none]
        rw [fileWalk_ren x st (fun i hx => hi i (.inl hx))]
        exact bind_ren (α := Unit) _ fun st => visitIdent_ren h sel (hi sel (.inr rfl)) st
      | some y =>
        obtain ⟨i, o, q⟩ := y
        simp only [Option.map_some, show (renF ρ st).global.getPkgSymbol q = st.global.getPkgSymbol q from rfl]
        cases st.global.getPkgSymbol q with
        | none => rfl
        | some sym =>
          simp only [identRange_ren h i (hi i (.inl (selectorPkg_ident hs))), emit_ren]
          exact visitIdent_ren h sel (hi sel (.inr rfl)) _
  | .funcDecl recv name typ body pos endPos _, st, hi => by
      simp only [renNode, fileWalk]
      simp only [nodeIdents, List.mem_append, List.mem_singleton] at hi
      have := fileWalkList_ren recv { st with cur := some (name.uid, pos, endPos) } (fun i hx => hi i (.inl (.inl (.inl hx))))
      rw [show ({ renF ρ st with cur := some ((renIdent ρ name).uid, ρ.pos pos, ρ.pos endPos) } : FState) =
        renF ρ { st with cur := some (name.uid, pos, endPos) } from rfl, this]
      rw [bind_ren (α := Unit) _ fun st => visitIdent_ren h name (hi name (.inl (.inl (.inr rfl)))) st]
      refine bind_ren (α := Unit) _ fun st => ?_
      rw [fileWalk_ren typ st (fun i hx => hi i (.inl (.inr hx)))]
      exact bind_ren (α := Unit) _ fun st => fileWalkList_ren body st (fun i hx => hi i (.inr hx))
  | .file _ decls, st, hi => by simp only [renNode, fileWalk]; exact fileWalkList_ren decls st hi
  | .ident i, st, hi => by simp only [renNode, fileWalk]; exact visitIdent_ren h i (hi i (by simp [nodeIdents])) st
  | .star x, st, hi => by simp only [renNode, fileWalk]; exact fileWalk_ren x st hi
  | .paren x, st, hi => by simp only [renNode, fileWalk]; exact fileWalk_ren x st hi
  | .unary x, st, hi => by simp only [renNode, fileWalk]; exact fileWalk_ren x st hi
  | .chanT x, st, hi => by simp only [renNode, fileWalk]; exact fileWalk_ren x st hi
  | .index x is, st, hi => by
      simp only [renNode, fileWalk]
      simp only [nodeIdents, List.mem_append] at hi
      rw [fileWalk_ren x st fun i hx => hi i (.inl hx)]
      exact bind_ren (α := Unit) _ fun st => fileWalkList_ren is st fun i hx => hi i (.inr hx)
  | .arrayT len elt, st, hi => by
      simp only [renNode, fileWalk]
      simp only [nodeIdents, List.mem_append] at hi
      rw [fileWalkList_ren len st fun i hx => hi i (.inl hx)]
      exact bind_ren (α := Unit) _ fun st => fileWalk_ren elt st fun i hx => hi i (.inr hx)
  | .mapT k v, st, hi => by
      simp only [renNode, fileWalk]
      simp only [nodeIdents, List.mem_append] at hi
      rw [fileWalk_ren k st fun i hx => hi i (.inl hx)]
      exact bind_ren (α := Unit) _ fun st => fileWalk_ren v st fun i hx => hi i (.inr hx)
  | .funcT tps ps rs, st, hi => by
      simp only [renNode, fileWalk]
      simp only [nodeIdents, List.mem_append] at hi
      rw [fileWalkList_ren tps st fun i hx => hi i (.inl (.inl hx))]
      rw [bind_ren (α := Unit) _ fun st => fileWalkList_ren ps st fun i hx => hi i (.inl (.inr hx))]
      exact bind_ren (α := Unit) _ fun st => fileWalkList_ren rs st fun i hx => hi i (.inr hx)
  | .structT fs, st, hi => by simp only [renNode, fileWalk]; exact fileWalkList_ren fs st hi
  | .ifaceT fs, st, hi => by simp only [renNode, fileWalk]; exact fileWalkList_ren fs st hi
  | .block fs, st, hi => by simp only [renNode, fileWalk]; exact fileWalkList_ren fs st hi
  | .other fs, st, hi => by simp only [renNode, fileWalk]; exact fileWalkList_ren fs st hi
  | .genDecl _ fs _, st, hi => by simp only [renNode, fileWalk]; exact fileWalkList_ren fs st hi
  | .badDecl, st, hi => by simp only [renNode, fileWalk, Option.map_some]
  | .field _ names typ _ _, st, hi => by
      simp only [renNode, fileWalk]
      simp only [nodeIdents, List.mem_append] at hi
      rw [visitIdents_ren h names st fun i hx => hi i (.inl hx)]
      exact bind_ren (α := Unit) _ fun st => fileWalk_ren typ st fun i hx => hi i (.inr hx)
  | .typeSpec name tps typ _, st, hi => by
      simp only [renNode, fileWalk]
      simp only [nodeIdents, List.cons_append, List.mem_cons, List.mem_append] at hi
      rw [visitIdent_ren h name (hi name (.inl rfl))]
      rw [bind_ren (α := Unit) _ fun st => fileWalkList_ren tps st fun i hx => hi i (.inr (.inl hx))]
      exact bind_ren (α := Unit) _ fun st => fileWalk_ren typ st fun i hx => hi i (.inr (.inr hx))
  | .valueSpec _ names typ values _ _, st, hi => by
      simp only [renNode, fileWalk]
      simp only [nodeIdents, List.mem_append] at hi
      rw [visitIdents_ren h names st fun i hx => hi i (.inl (.inl hx))]
      rw [bind_ren (α := Unit) _ fun st => fileWalkList_ren typ st fun i hx => hi i (.inl (.inr hx))]
      exact bind_ren (α := Unit) _ fun st => fileWalkList_ren values st fun i hx => hi i (.inr hx)
theorem fileWalkList_ren : ∀ (ns : List Node) (st : FState), (∀ i ∈ nodesIdents ns, EndKept ρ i) →
    fileWalkList e' (renNodes ρ ns) (renF ρ st) = (fileWalkList e ns st).map (renF ρ)
  | [], st, _ => by simp [renNodes, fileWalkList]
  | n :: ns, st, hi => by
      simp only [renNodes, fileWalkList]
      simp only [nodesIdents, List.mem_append] at hi
      rw [fileWalk_ren n st fun i hx => hi i (.inl hx)]
      exact bind_ren (α := Unit) _ fun st => fileWalkList_ren ns st fun i hx => hi i (.inr hx)
end

theorem localInfo_ren {os os' : Obj → Str} (ho : ∀ o, os' (renObj ρ o) = os o) (l : Local) :
    localInfo e' os' (renLocal ρ l) = localInfo e os l := by
  unfold localInfo
  have hk := kind_ren (ρ := ρ) (some l.obj.self)
  simp only [Option.map_some] at hk
  rw [show (renLocal ρ l).obj.self = renData ρ l.obj.self from rfl, hk, show (renData ρ l.obj.self).pos = ρ.pos l.obj.self.pos from rfl,
    caseClauses_ren h]
  have ht : signatureText os' (renLocal ρ l) = signatureText os l := by
    unfold signatureText
    rw [show (renLocal ρ l).obj = renObj ρ l.obj from rfl, ho, show (renObj ρ l.obj).self.cls = renClass ρ l.obj.self.cls from rfl,
      show (renObj ρ l.obj).self.name = l.obj.self.name from rfl]
    rcases l.obj.self.cls with _ | (u | u | _ | _) | _ | _ | _ | _ | _ | _ <;> rfl
  rw [ht]
  cases e.caseClauses l.obj.self.pos <;> rfl

end

theorem symbolsForFile_ren {fo fo' : Nat → Option Nat} (hf : ∀ q, fo' (ρ.pos q) = (fo q).map ρ.file) (t : Table) (f : Nat) :
    Table.symbolsForFile (renTable ρ t) fo' (ρ.file f) = t.symbolsForFile fo f := by
  unfold Table.symbolsForFile renTable
  rw [List.filter_map, List.map_map]
  have : ((fun e : Nat × SymInfo => fo' e.1 == some (ρ.file f)) ∘ fun e : Nat × SymInfo => (ρ.pos e.1, e.2)) =
      fun e => fo e.1 == some f := by
    funext x
    rw [Bool.eq_iff_iff]
    simp only [Function.comp, beq_iff_eq, hf, Option.map_eq_some_iff]
    constructor
    · rintro ⟨a, h1, h2⟩
      rw [h1, ρ.file_inj _ _ h2]
    · exact fun h => ⟨f, h, rfl⟩
  rw [this]
  rfl

end Verif
