import Verif.Lemmas.RenamingImpl
import Mathlib.Data.List.Perm.Basic
/-! # Renaming: the whole run -/
namespace Verif
open Spec Index Impl

variable {ρ : Renaming}

theorem insertBy_map {α β : Type} (f : α → β) (le : α → α → Bool) (le' : β → β → Bool) (h : ∀ a b, le' (f a) (f b) = le a b) (x : α)
    (l : List α) : insertBy le' (f x) (l.map f) = (insertBy le x l).map f := by
  induction l with
  | nil => rfl
  | cons y l ih =>
    simp only [List.map_cons, insertBy, h, ih]
    split <;> rfl

theorem sortBy_map {α β : Type} (f : α → β) (le : α → α → Bool) (le' : β → β → Bool) (h : ∀ a b, le' (f a) (f b) = le a b)
    (l : List α) : sortBy le' (l.map f) = (sortBy le l).map f := by
  induction l with
  | nil => rfl
  | cons y l ih => simp only [List.map_cons, sortBy, ih, insertBy_map f le le' h]

/-! ## One package -/

section
variable {p p' : Package} (h : RenamedPackage ρ p p')
include h

theorem RenamedPackage.path : p'.path = p.path := h.env.pkgPath

theorem findPackageDocs_ren : findPackageDocs p' = findPackageDocs p := by
  unfold findPackageDocs
  rw [h.files, h.name, List.filter_map]
  simp only
  rw [sortBy_map (renFile ρ) (fun a b => decide (fileRelevance p.name a.position ≤ fileRelevance p.name b.position)) _ (fun _ _ => rfl),
    List.filterMap_map]
  rfl

theorem packageInfo_ren (sym : Str) : packageInfo p' sym = packageInfo p sym := by
  unfold packageInfo
  rw [findPackageDocs_ren h, h.name]

theorem newDocs_ren (root : Str) (docs : Docs) : newDocs root p'.files docs = newDocs root p.files docs := by
  unfold newDocs
  rw [h.files, List.foldl_map]
  rfl

theorem setOccurrences_ren (sym : Str) (docs : Docs) : setOccurrences p' sym p'.files docs = setOccurrences p sym p.files docs := by
  unfold setOccurrences
  rw [h.files, List.foldl_map]
  congr 1
  funext docs f
  unfold setOccurrence packageOccurrence
  have : p'.env.position (renFile ρ f).name.pos = p.env.position f.name.pos := h.env.position f.name.pos
  rw [this]
  rfl

theorem visitSyntaxOf_ren (root : Str) (docs : Docs) :
    visitSyntaxOf root p' docs = (visitSyntaxOf root p docs).map fun x => (x.1, renTable ρ x.2) := by
  unfold visitSyntaxOf
  rw [newDocs_ren h]
  have : p'.files.map SourceFile.node = renNodes ρ (p.files.map SourceFile.node) := by
    rw [renNodes_map, h.files, List.map_map, List.map_map]
    apply List.map_congr_left
    intro f _
    simp [SourceFile.node, renFile, renNode]
  have hv := visitPackageSyntax_ren h.env (p.files.map SourceFile.node) []
  rw [show renTable ρ [] = [] from rfl] at hv
  rw [this, hv]
  cases visitPackageSyntax p.env (p.files.map SourceFile.node) [] <;> rfl

theorem visitPackage_ren (root : Str) (docs : Docs) (g : Global) :
    visitPackage root p' (docs, renGlobal ρ g) = (visitPackage root p (docs, g)).map fun x => (x.1, renGlobal ρ x.2) := by
  unfold visitPackage
  rw [visitSyntaxOf_ren h]
  cases visitSyntaxOf root p docs with
  | none => rfl
  | some x =>
    obtain ⟨docs, t⟩ := x
    simp only [Option.map_some]
    have hf := h.files
    have hs := fun sym docs => setOccurrences_ren h sym docs
    cases hp : p.files with
    | nil =>
      rw [hp] at hf
      rw [hf]
      simp only [List.map_nil]
      rw [RenamedPackage.path h, h.env.module]
      rfl
    | cons f fs =>
      rw [hf, hp] at hs
      rw [hp] at hf
      rw [hf]
      simp only [List.map_cons, Option.map_some] at hs ⊢
      rw [hs, packageInfo_ren h, RenamedPackage.path h, h.env.module,
        show (renFile ρ f).name.pos = ρ.pos f.name.pos from rfl, table_set_ren]
      rfl

omit h in
theorem visitPackages_ren (root : Str) {ps ps' : List Package} (hp : List.Forall₂ (RenamedPackage ρ) ps ps') : ∀ (docs : Docs) (g : Global),
    visitPackages root ps' (docs, renGlobal ρ g) = (visitPackages root ps (docs, g)).map fun x => (x.1, renGlobal ρ x.2) := by
  induction hp with
  | nil => intro docs g; rfl
  | cons h _ ih =>
    intro docs g
    simp only [visitPackages]
    rw [visitPackage_ren h]
    cases visitPackage root _ (docs, g) with
    | none => rfl
    | some x => exact ih x.1 x.2

omit h in
theorem setPkgSymbols_ren {ps ps' : List Package} (hp : List.Forall₂ (RenamedPackage ρ) ps ps') : ∀ (g : Global),
    setPkgSymbols ps' (renGlobal ρ g) = renGlobal ρ (setPkgSymbols ps g) := by
  induction hp with
  | nil => intro g; rfl
  | cons h _ ih =>
    intro g
    simp only [setPkgSymbols]
    rw [← ih, RenamedPackage.path h, h.env.module]
    rfl

end

/-! ## Maps -/

theorem keys_ren {m m' : GoMap Package} (h : RenamedMap ρ m m') : m'.keys = m.keys := by
  unfold GoMap.keys
  induction h with
  | nil => rfl
  | cons h _ ih => simp [h.1, ih]

theorem values_ren {m m' : GoMap Package} (h : RenamedMap ρ m m') : List.Forall₂ (RenamedPackage ρ) (m.map (·.2)) (m'.map (·.2)) := by
  induction h with
  | nil => exact .nil
  | cons h _ ih => exact .cons h.2 ih

theorem get_ren {m m' : GoMap Package} (h : RenamedMap ρ m m') (k : Str) : Option.Rel (RenamedPackage ρ) (m.get k) (m'.get k) := by
  unfold GoMap.get
  induction h with
  | nil => exact .none
  | @cons a b _ _ h _ ih =>
    obtain ⟨x, p⟩ := a
    obtain ⟨y, q⟩ := b
    obtain ⟨rfl, h⟩ := h
    simp only [List.lookup_cons]
    cases k == y with
    | true => exact .some h
    | false => exact ih

theorem sortedValues_ren {m m' : GoMap Package} (h : RenamedMap ρ m m') :
    List.Forall₂ (RenamedPackage ρ) (sortedValues m) (sortedValues m') := by
  unfold sortedValues
  rw [keys_ren h]
  induction sortStrs m.keys with
  | nil => exact .nil
  | cons k ks ih =>
    simp only [List.filterMap_cons]
    have := get_ren h k
    revert this
    cases m.get k <;> cases m'.get k <;> intro this
    · exact ih
    · cases this
    · cases this
    · cases this with
      | some hp => exact .cons hp ih

/-! ## Orders -/

/-- Orders of iteration that correspond to each other. -/
structure RenOrd (ρ : Renaming) (project all project' all' : GoMap Package) (ord ord' : MapOrders) : Prop where
  extractAll : List.Forall₂ (RenamedPackage ρ) (ord.extractAll (all.map (·.2))) (ord'.extractAll (all'.map (·.2)))
  all : List.Forall₂ (RenamedPackage ρ) (ord.all (all.map (·.2))) (ord'.all (all'.map (·.2)))
  extractProject : List.Forall₂ (RenamedPackage ρ) (ord.extractProject (project.map (·.2))) (ord'.extractProject (project'.map (·.2)))
  defs : ∀ p l, ord'.defs p (l.map fun t => t.map (renTypeDef ρ)) = (ord.defs p l).map fun t => t.map (renTypeDef ρ)
  table : ∀ n t, ord'.table n (renTable ρ t) = renTable ρ (ord.table n t)
  locals : ∀ n (l : List (Nat × Local)), ord'.locals n (l.map fun e => (ρ.pos e.1, renLocal ρ e.2)) =
    (ord.locals n l).map fun e => (ρ.pos e.1, renLocal ρ e.2)
  implicits : ∀ n l, ord'.implicits n (l.map (renObj ρ)) = (ord.implicits n l).map (renObj ρ)
  impls : ∀ a b, ord'.impls (renImpl ρ a) (renImpl ρ b) = renOrders ρ (ord.impls a b)

section
variable {project all project' all' : GoMap Package} {ord ord' : MapOrders} (ho : RenOrd ρ project all project' all' ord ord')
include ho

theorem indexVisitPackages_ren (hp : RenamedMap ρ project project') (o : Opts) :
    indexVisitPackages o ord' project' all' = (indexVisitPackages o ord project all).map fun x => (x.1, renGlobal ρ x.2) := by
  unfold indexVisitPackages
  rw [← visitPackages_ren o.moduleRoot (sortedValues_ren hp), ← setPkgSymbols_ren ho.all]
  rfl

theorem impl_ren {p p' : Package} (h : RenamedPackage ρ p p') : p'.impl ord' = renPkg ρ (p.impl ord) := by
  unfold Package.impl renPkg
  simp only
  rw [RenamedPackage.path h, h.name, h.env.module, h.defs, h.scope]
  congr 1
  cases p.defs with
  | none => rfl
  | some ds => simp only [Option.map_some]; rw [ho.defs]

theorem impls_ren {ps ps' : List Package} (h : List.Forall₂ (RenamedPackage ρ) ps ps') :
    ps'.map (Package.impl ord') = (ps.map (Package.impl ord)).map (renPkg ρ) := by
  induction h with
  | nil => rfl
  | cons h _ ih => simp only [List.map_cons, ih, impl_ren ho h]

theorem implementations_ren {D D' : Deps} (hD : RenamedDeps ρ D D') (o : Opts) (g : Global) :
    Option.Rel (fun r r' => r'.1 = renGlobal ρ r.1 ∧ RenHeap ρ r.2.1 r'.2.1 ∧ r'.2.2 = r.2.2)
      (implementations D o ord project all g) (implementations D' o ord' project' all' (renGlobal ρ g)) := by
  unfold implementations
  cases o.skipImplementations with
  | true => exact .some ⟨rfl, fun _ => rfl, rfl⟩
  | false =>
    simp only [Bool.false_eq_true, if_false]
    rw [impls_ren ho ho.extractProject, impls_ren ho ho.extractAll, hD.ext]
    have hempty : RenHeap ρ (fun _ => []) (fun _ => []) := fun _ => rfl
    have := addImplementations_ren D.ext hD.scopes g hempty
      ((ord.extractProject (project.map (·.2))).map (Package.impl ord))
      ((ord.extractAll (all.map (·.2))).map (Package.impl ord)) ord.impls ord'.impls ho.impls
    revert this
    generalize addImplementations D.ext D.scopes g _ _ _ _ = a
    generalize addImplementations D.ext D'.scopes _ _ _ _ _ = b
    intro this
    cases this with
    | none => exact .none
    | some h =>
      refine .some ⟨h.1, h.2.1, ?_⟩
      simp only
      rw [h.2.2]
      simp only [List.map_map]
      apply List.map_congr_left
      intro s _
      show Message.external s.sym _ = Message.external s.sym _
      congr 1
      exact h.2.1 s.ref

theorem documentRelationships_ren {heap heap' : Heap} (hh : RenHeap ρ heap heap') (path : Str) (t : Table) (l : List (Nat × Local))
    {fo fo' : Nat → Option Nat} (hf : ∀ q, fo' (ρ.pos q) = (fo q).map ρ.file) (f : Nat) :
    documentRelationships heap' path (renTable ρ t) (l.map fun e => (ρ.pos e.1, renLocal ρ e.2)) fo' (ρ.file f) =
      documentRelationships heap path t l fo f := by
  unfold documentRelationships renTable
  rw [List.filter_map, List.map_map, List.map_map]
  have : ((fun e : Nat × SymInfo => fo' e.1 == some (ρ.file f)) ∘ fun e : Nat × SymInfo => (ρ.pos e.1, e.2)) =
      fun e => fo e.1 == some f := by
    funext x
    rw [Bool.eq_iff_iff]
    simp only [Function.comp, beq_iff_eq, hf, Option.map_eq_some_iff]
    constructor
    · rintro ⟨a, h1, h2⟩
      rw [h1, ρ.file_inj _ _ h2]
    · exact fun h => ⟨f, h, rfl⟩
  rw [this]
  congr 1
  apply List.map_congr_left
  intro e _
  exact hh (.entry path e.1)

omit ho in
theorem endKept {f : SourceFile} (h : MovedAsWhole ρ f) : ∀ i ∈ nodesIdents f.decls, EndKept ρ i := by
  obtain ⟨base, base', size, hb, hi⟩ := h
  intro i hm
  obtain ⟨h1, h2⟩ := hi i hm
  unfold EndKept
  have a := hb (i.pos - base) (by omega)
  have b := hb (i.pos - base + i.name.length) (by omega)
  rw [show base + (i.pos - base) = i.pos by omega] at a
  rw [show base + (i.pos - base + i.name.length) = i.pos + i.name.length by omega] at b
  rw [a, b]
  omega

theorem visitFile_ren {D D' : Deps} (hD : RenamedDeps ρ D D') {heap heap' : Heap} (hh : RenHeap ρ heap heap') (n : Nat) {p p' : Package}
    (h : RenamedPackage ρ p p') {f : SourceFile} (hf : f ∈ p.files) (d : Doc) (g : Global) :
    visitFile D' ord' heap' n p' (renFile ρ f) d (renGlobal ρ g) =
      (visitFile D ord heap n p f d g).map fun x => (x.1, renGlobal ρ x.2) := by
  unfold visitFile
  rw [RenamedPackage.path h, symbols_ren]
  cases g.symbols.lookup p.path with
  | none => rfl
  | some r =>
    simp only [Option.map_some]
    have he : RenamedFileEnv ρ (fileEnv D ord n p r.table) (fileEnv D' ord' n p' (renRecord ρ r).table) := by
      refine ⟨h.env, hD.scopes, rfl, ?_, h.pkgNameOf, h.imports⟩
      show ord'.implicits n p'.implicits = _
      rw [h.implicits, ho.implicits]
      rfl
    have hw := fileWalk_ren he f.node (newFileVisitor (d.pkgOcc.getD zeroOccurrence) g)
      (by simpa [SourceFile.node, nodeIdents] using endKept (h.moved f hf))
    rw [show (renFile ρ f).node = renNode ρ f.node by simp [SourceFile.node, renFile, renNode],
      show newFileVisitor (d.pkgOcc.getD zeroOccurrence) (renGlobal ρ g) = renF ρ (newFileVisitor (d.pkgOcc.getD zeroOccurrence) g) from rfl, hw]
    cases fileWalk (fileEnv D ord n p r.table) f.node (newFileVisitor (d.pkgOcc.getD zeroOccurrence) g) with
    | none => rfl
    | some st =>
      simp only [Option.map_some]
      rw [show (renRecord ρ r).table = renTable ρ r.table from rfl, ho.table,
        show (renF ρ st).locals = st.locals.map fun e => (ρ.pos e.1, renLocal ρ e.2) from rfl, ho.locals,
        show (renFile ρ f).file = ρ.file f.file from rfl, documentRelationships_ren ho hh p.path _ _ hD.fileOf]
      unfold toScipDocument
      simp only
      rw [symbolsForFile_ren hD.fileOf]
      have hl : ((ord.locals n st.locals).map fun e : Nat × Local => (ρ.pos e.1, renLocal ρ e.2)).map
          (fun e => localInfo (fileEnv D' ord' n p' (renTable ρ r.table)) D'.objectString e.2) =
          (ord.locals n st.locals).map (fun e => localInfo (fileEnv D ord n p r.table) D.objectString e.2) := by
        rw [List.map_map]
        apply List.map_congr_left
        intro e _
        exact localInfo_ren he hD.objectString e.2
      rw [hl]
      rfl

theorem writeDocuments_ren {D D' : Deps} (hD : RenamedDeps ρ D D') {heap heap' : Heap} (hh : RenHeap ρ heap heap') (w : Writer) (docs : Docs)
    {es es' : List (Package × SourceFile)}
    (he : List.Forall₂ (fun e e' => RenamedPackage ρ e.1 e'.1 ∧ e'.2 = renFile ρ e.2 ∧ e.2 ∈ e.1.files) es es') :
    ∀ (g : Global) (done : List Message), writeDocuments D' ord' w heap' docs es' (renGlobal ρ g) done =
      writeDocuments D ord w heap docs es g done := by
  induction he with
  | nil => intro g done; rfl
  | @cons e e' _ _ h _ ih =>
    intro g done
    obtain ⟨p, f⟩ := e
    obtain ⟨p', f'⟩ := e'
    obtain ⟨hp, hf', hf⟩ := h
    simp only at hp hf' hf
    subst hf'
    simp only [writeDocuments]
    rw [show (renFile ρ f).fileName = f.fileName from rfl]
    cases docs.get f.fileName with
    | none => exact ih g done
    | some d =>
      simp only
      rw [visitFile_ren ho hD hh done.length hp hf]
      cases visitFile D ord heap done.length p f d g with
      | none => rfl
      | some x =>
        obtain ⟨m, g⟩ := x
        simp only [Option.map_some]
        cases w done m with
        | some e => rfl
        | none => exact ih g _

omit ho in
theorem filesOf_ren {ps ps' : List Package} (h : List.Forall₂ (RenamedPackage ρ) ps ps') :
    List.Forall₂ (fun e e' => RenamedPackage ρ e.1 e'.1 ∧ e'.2 = renFile ρ e.2 ∧ e.2 ∈ e.1.files) (filesOf ps) (filesOf ps') := by
  induction h with
  | nil => exact .nil
  | @cons p p' _ _ h _ ih =>
    unfold filesOf at ih ⊢
    simp only [List.flatMap_cons]
    refine List.rel_append ?_ ih
    rw [h.files, List.map_map]
    have key : ∀ fs : List SourceFile, (∀ f ∈ fs, f ∈ p.files) →
        List.Forall₂ (fun e e' => RenamedPackage ρ e.1 e'.1 ∧ e'.2 = renFile ρ e.2 ∧ e.2 ∈ e.1.files)
          (fs.map fun f => (p, f)) (fs.map ((fun f => (p', f)) ∘ renFile ρ)) := by
      intro fs
      induction fs with
      | nil => intro _; exact .nil
      | cons f fs ih =>
        intro hf
        exact .cons ⟨h, rfl, hf f (by simp)⟩ (ih fun g hg => hf g (by simp [hg]))
    exact key p.files fun _ h => h

theorem index_ren {D D' : Deps} (hD : RenamedDeps ρ D D') (hp : RenamedMap ρ project project') (o : Opts) (w : Writer) :
    index D' o ord' w (.ok (project', all')) = index D o ord w (.ok (project, all)) := by
  unfold index
  have hm : metadata D' o = metadata D o := by
    unfold metadata projectRoot
    rw [hD.toolVersion, hD.escapePath]
  rw [hm]
  simp only
  cases w [] (.metadata (metadata D o)) with
  | some e => rfl
  | none =>
    simp only
    rw [indexVisitPackages_ren ho hp]
    cases indexVisitPackages o ord project all with
    | none => rfl
    | some x =>
      obtain ⟨docs, g⟩ := x
      simp only [Option.map_some]
      have him := implementations_ren ho hD o g
      revert him
      cases implementations D o ord project all g with
      | none => cases implementations D' o ord' project' all' (renGlobal ρ g) with
        | none => intro _; rfl
        | some y => intro h; cases h
      | some x => cases implementations D' o ord' project' all' (renGlobal ρ g) with
        | none => intro h; cases h
        | some y =>
          intro h
          cases h with
          | some h =>
            obtain ⟨g₁, heap, ex⟩ := x
            obtain ⟨g₁', heap', ex'⟩ := y
            obtain ⟨h1, h2, h3⟩ := h
            simp only at h1 h2 h3
            subst h1 h3
            simp only
            rw [writeDocuments_ren ho hD h2 w docs (filesOf_ren (sortedValues_ren hp))]

end

/-! ## Every order has a counterpart -/

theorem forall₂_perm {α β : Type} {R : α → β → Prop} {l : List α} {l' m' : List β} (h : List.Forall₂ R l l') (hp : m'.Perm l') :
    ∃ m, m.Perm l ∧ List.Forall₂ R m m' := by
  have := List.perm_comp_forall₂ (r := flip R) hp h.flip
  obtain ⟨m, h1, h2⟩ := this
  exact ⟨m, h2, h1.flip⟩

theorem forall₂_map_self {α β : Type} (f : α → β) (l : List α) : List.Forall₂ (fun a b => b = f a) l (l.map f) := by
  induction l with
  | nil => exact .nil
  | cons a l ih => exact .cons rfl ih

theorem perm_map_inv {α β : Type} (f : α → β) {l : List α} {m' : List β} (h : m'.Perm (l.map f)) : ∃ m : List α, m.Perm l ∧ m' = m.map f := by
  obtain ⟨m, h1, h2⟩ := forall₂_perm (forall₂_map_self f l) h
  refine ⟨m, h1, ?_⟩
  clear h1 h
  induction h2 with
  | nil => rfl
  | cons h _ ih => simp [h, ih]


theorem lift_ifaces {is : List ImplDef} {ws' : List IfaceVisit} (h : List.Forall₂ (fun i w' => w'.iface = renDef ρ i) is ws')
    (hm : ∀ w' ∈ ws', w'.methods.Perm w'.iface.methods) :
    ∃ ws : List IfaceVisit, ws.map (·.iface) = is ∧ ws' = ws.map (renIfaceVisit ρ) ∧ ∀ w ∈ ws, w.methods.Perm w.iface.methods := by
  induction h with
  | nil => exact ⟨[], rfl, rfl, by simp⟩
  | @cons i w' _ _ hi _ ih =>
    obtain ⟨ws, h1, h2, h3⟩ := ih fun w hw => hm w (by simp [hw])
    have := hm w' (by simp)
    rw [hi] at this
    obtain ⟨ms, hp, he⟩ := perm_map_inv (fun e : Str × SymRef => (e.1, renSymRef ρ e.2)) this
    refine ⟨⟨i, ms⟩ :: ws, by simp [h1], ?_, ?_⟩
    · rw [List.map_cons, ← h2]
      congr 1
      obtain ⟨a, b⟩ := w'
      simp only at hi he
      rw [hi, he]
      rfl
    · intro w hw
      rcases List.mem_cons.1 hw with rfl | hw
      · exact hp
      · exact h3 w hw

theorem lift_types {ifs : List (Str × ImplDef)} {ts : List ImplDef} {vs' : List TypeVisit}
    (h : List.Forall₂ (fun t v' => v'.ty = renDef ρ t) ts vs')
    (hm : ∀ v' ∈ vs', (v'.ifaces.map (·.iface)).Perm ((renDefs ρ ifs).map (·.2)) ∧ v'.canon.Perm v'.ty.methods ∧
      ∀ w' ∈ v'.ifaces, w'.methods.Perm w'.iface.methods) :
    ∃ vs : List TypeVisit, vs.map (·.ty) = ts ∧ vs' = vs.map (renTypeVisit ρ) ∧
      ∀ v ∈ vs, (v.ifaces.map (·.iface)).Perm (ifs.map (·.2)) ∧ v.canon.Perm v.ty.methods ∧ ∀ w ∈ v.ifaces, w.methods.Perm w.iface.methods := by
  induction h with
  | nil => exact ⟨[], rfl, rfl, by simp⟩
  | @cons t v' _ _ ht _ ih =>
    obtain ⟨vs, h1, h2, h3⟩ := ih fun w hw => hm w (by simp [hw])
    obtain ⟨m1, m2, m3⟩ := hm v' (by simp)
    rw [ht] at m2
    obtain ⟨canon, hcp, hce⟩ := perm_map_inv (fun e : Str × SymRef => (e.1, renSymRef ρ e.2)) m2
    have m1' : (v'.ifaces.map (·.iface)).Perm ((ifs.map (·.2)).map (renDef ρ)) := by
      rw [List.map_map]
      unfold renDefs at m1
      rw [List.map_map] at m1
      exact m1
    obtain ⟨is, hip, hie⟩ := perm_map_inv (renDef ρ) m1'
    have hf : List.Forall₂ (fun i w' => w'.iface = renDef ρ i) is v'.ifaces := by
      rw [← List.forall₂_map_right_iff (f := fun w' : IfaceVisit => w'.iface) (R := fun i x => x = renDef ρ i), hie]
      exact forall₂_map_self _ _
    obtain ⟨ws, w1, w2, w3⟩ := lift_ifaces hf m3
    refine ⟨⟨t, ws, canon⟩ :: vs, by simp [h1], ?_, ?_⟩
    · rw [List.map_cons, ← h2]
      congr 1
      obtain ⟨a, b, c⟩ := v'
      simp only at ht w2 hce
      rw [ht, w2, hce]
      rfl
    · intro v hv
      rcases List.mem_cons.1 hv with rfl | hv
      · exact ⟨by rw [w1]; exact hip, hcp, w3⟩
      · exact h3 v hv

theorem lift_enumerates {cs ifs : List (Str × ImplDef)} {vs' : List TypeVisit} (h : Enumerates (renDefs ρ cs) (renDefs ρ ifs) vs') :
    ∃ vs, Enumerates cs ifs vs ∧ vs' = vs.map (renTypeVisit ρ) := by
  obtain ⟨h1, h2⟩ := h
  have h1' : (vs'.map (·.ty)).Perm ((cs.map (·.2)).map (renDef ρ)) := by
    rw [List.map_map]
    unfold renDefs at h1
    rw [List.map_map] at h1
    exact h1
  obtain ⟨ts, hp, he⟩ := perm_map_inv (renDef ρ) h1'
  have hf : List.Forall₂ (fun t v' => v'.ty = renDef ρ t) ts vs' := by
    rw [← List.forall₂_map_right_iff (f := fun v' : TypeVisit => v'.ty) (R := fun i x => x = renDef ρ i), he]
    exact forall₂_map_self _ _
  obtain ⟨vs, v1, v2, v3⟩ := lift_types hf h2
  exact ⟨vs, ⟨by rw [v1]; exact hp, v3⟩, v2⟩

theorem lift_orders {o' : Impl.State → Impl.State → Orders} (h : ValidOrders o') (a b : Impl.State) :
    ∃ o : Orders, (Enumerates a.concretes a.ifaces o.localLocal ∧ Enumerates a.concretes b.ifaces o.localRemote ∧
      Enumerates b.concretes a.ifaces o.remoteLocal ∧ o.external.Perm (b.concretes.map (·.2))) ∧
      o' (renImpl ρ a) (renImpl ρ b) = renOrders ρ o := by
  obtain ⟨h1, h2, h3, h4⟩ := h (renImpl ρ a) (renImpl ρ b)
  obtain ⟨v1, e1, f1⟩ := lift_enumerates h1
  obtain ⟨v2, e2, f2⟩ := lift_enumerates h2
  obtain ⟨v3, e3, f3⟩ := lift_enumerates h3
  have h4' : (o' (renImpl ρ a) (renImpl ρ b)).external.Perm ((b.concretes.map (·.2)).map (renDef ρ)) := by
    rw [List.map_map]
    have : (renImpl ρ b).concretes = renDefs ρ b.concretes := rfl
    rw [this] at h4
    unfold renDefs at h4
    rw [List.map_map] at h4
    exact h4
  obtain ⟨ex, e4, f4⟩ := perm_map_inv (renDef ρ) h4'
  refine ⟨⟨v1, v2, v3, ex⟩, ⟨e1, e2, e3, e4⟩, ?_⟩
  unfold renOrders
  rw [← f1, ← f2, ← f3, ← f4]

open Classical in
/-- Whatever orders the one run chooses, the other run may choose the corresponding ones. -/
theorem exists_orders {project all project' all' : GoMap Package} (hp : RenamedMap ρ project project') (ha : RenamedMap ρ all all')
    {ord' : MapOrders} (hv : ValidMapOrders ord') : ∃ ord, ValidMapOrders ord ∧ RenOrd ρ project all project' all' ord ord' := by
  obtain ⟨la, pa, fa⟩ := forall₂_perm (values_ren ha) (hv.all _)
  obtain ⟨lp, pp, fp⟩ := forall₂_perm (values_ren hp) (hv.extractProject _)
  obtain ⟨le, pe, fe⟩ := forall₂_perm (values_ren ha) (hv.extractAll _)
  have hdefs : ∀ (p : Str) (l : List (Option TypeDef)), ∃ m : List (Option TypeDef), m.Perm l ∧
      ord'.defs p (l.map fun t => t.map (renTypeDef ρ)) = m.map fun t => t.map (renTypeDef ρ) := fun p l => perm_map_inv _ (hv.defs p _)
  have htab : ∀ (n : Nat) (t : Table), ∃ m : Table, m.Perm t ∧ ord'.table n (renTable ρ t) = renTable ρ m :=
    fun n t => perm_map_inv _ (hv.table n _)
  have hloc : ∀ (n : Nat) (l : List (Nat × Local)), ∃ m : List (Nat × Local), m.Perm l ∧
      ord'.locals n (l.map fun e => (ρ.pos e.1, renLocal ρ e.2)) = m.map fun e => (ρ.pos e.1, renLocal ρ e.2) :=
    fun n l => perm_map_inv _ (hv.locals n _)
  have himp : ∀ (n : Nat) (l : List Obj), ∃ m : List Obj, m.Perm l ∧ ord'.implicits n (l.map (renObj ρ)) = m.map (renObj ρ) :=
    fun n l => perm_map_inv _ (hv.implicits n _)
  choose fdefs hdefs1 hdefs2 using hdefs
  choose ftab htab1 htab2 using htab
  choose floc hloc1 hloc2 using hloc
  choose fimp himp1 himp2 using himp
  choose fo ho1 ho2 using fun a b => lift_orders (ρ := ρ) hv.impls a b
  refine ⟨⟨fun l => if l = all.map (·.2) then la else l, fun l => if l = project.map (·.2) then lp else l,
    fun l => if l = all.map (·.2) then le else l, fdefs, ftab, floc, fimp, fo⟩, ?_, ?_⟩
  · constructor
    · intro l
      simp only
      split
      · rename_i h; rw [h]; exact pa
      · exact .refl _
    · intro l
      simp only
      split
      · rename_i h; rw [h]; exact pp
      · exact .refl _
    · intro l
      simp only
      split
      · rename_i h; rw [h]; exact pe
      · exact .refl _
    · exact hdefs1
    · exact htab1
    · exact hloc1
    · exact himp1
    · exact ho1
  · constructor
    · simp only [if_true]; exact fe
    · simp only [if_true]; exact fa
    · simp only [if_true]; exact fp
    · exact hdefs2
    · exact htab2
    · exact hloc2
    · exact himp2
    · exact ho2

end Verif
