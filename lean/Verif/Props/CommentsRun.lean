import Verif.Props.WholeRun
import Verif.Lemmas.Comments
/-! # Whole runs: documentation (C68) and deprecation (C16) from the comments of the source files -/
namespace Verif
open Spec Index

section
variable {D : Deps} {o : Opts} {ord : MapOrders} {w : Writer} {project all : GoMap Package} {objs : List Obj} {g : Global}

/-- The entries of the table of a package: its clause, and the declared entities with the documentation of their comments. -/
theorem table_entries (ht : TypedProject D project all objs) {p : Package} (hp : (p.path, p) ∈ project) (hn : DistinctIdents p)
    {t : Table} (htab : tableFor p (packageSymbol p) = some t) {q : Nat} {info : SymInfo} (hq : t.get q = some info) :
    (∃ f, p.files.head? = some f ∧ f.name.pos = q ∧ info.symbol = packageSymbol p) ∨
    ∃ i ds par, PackageDeclares p.env (p.files.map SourceFile.node) i ds q ∧ info = newSymInfo p.env (p.env.fromDescriptors ds) par i ∧
      ∀ f ∈ p.files, ∀ docs, DocumentedAs f.decls i docs → info.documentation = docs := by
  let P := packagePlaces (p.files.map (·.decls))
  have hfst : P.map (·.1) = p.files.flatMap fun f => identifiersList f.decls := by
    rw [packagePlaces_fst, List.flatMap_map]
  have hnod : ((P.map (·.1)).map (·.uid)).Nodup := by rw [hfst]; exact hn
  have hregs := visitPackageSyntax_regs (Q := MayBe P) p.env (p.files.map SourceFile.node) (filesOk_of ht hp) (by
    intro name decls hf d hd
    obtain ⟨f, hmf, he⟩ := List.mem_map.1 hf
    simp only [SourceFile.node, Node.file.injEq] at he
    obtain ⟨_, rfl⟩ := he
    apply declQ_of hnod
    intro e he
    exact List.mem_flatMap.2 ⟨f.decls, List.mem_map.2 ⟨f, hmf, rfl⟩, List.mem_flatMap.2 ⟨d, hd, he⟩⟩)
  have key : ∀ t₀, visitPackageSyntax p.env (p.files.map SourceFile.node) [] = some t₀ → t₀.get q = some info →
      ∃ i ds par, PackageDeclares p.env (p.files.map SourceFile.node) i ds q ∧ info = newSymInfo p.env (p.env.fromDescriptors ds) par i ∧
        ∀ f ∈ p.files, ∀ docs, DocumentedAs f.decls i docs → info.documentation = docs := by
    intro t₀ h₀ h
    rcases hregs.entries h₀ h with h | ⟨i, ds, par, hd, hm, rfl⟩
    · simp [Table.get_nil] at h
    · refine ⟨i, ds, par, hd, rfl, ?_⟩
      intro f hf docs hdoc
      have hsub : ((identifiersList f.decls).map (·.uid)).Nodup := by
        refine hn.sublist (List.Sublist.map _ ?_)
        obtain ⟨a, b, he⟩ := List.append_of_mem hf
        rw [he, List.flatMap_append, List.flatMap_cons]
        exact ((List.sublist_append_left _ _).trans (List.sublist_append_right _ _))
      obtain ⟨par', hpar, rfl⟩ := documentedAs_place hsub hdoc
      rcases hm (some par') (List.mem_flatMap.2 ⟨f.decls, List.mem_map.2 ⟨f, hf, rfl⟩, hpar⟩) with h | h
      · simp at h
      · simp only [Option.some.injEq] at h; subst h; rfl
  unfold tableFor at htab
  obtain ⟨t₀, h₀, htab⟩ := Option.map_eq_some_iff.1 htab
  cases hfs : p.files with
  | nil =>
    rw [hfs] at htab
    simp only at htab
    subst htab
    rw [← hfs]
    exact .inr (key _ h₀ hq)
  | cons f fs =>
    rw [hfs] at htab
    simp only at htab
    subst htab
    by_cases hqf : q = f.name.pos
    · subst hqf
      refine .inl ⟨f, rfl, rfl, ?_⟩
      rw [Table.get_set_self_cases] at hq
      split at hq
      · split at hq
        · rename_i hs; simp only [Option.some.injEq] at hq; subst hq; exact hs
        · simp only [Option.some.injEq] at hq; subst hq; rfl
      · simp only [Option.some.injEq] at hq; subst hq; rfl
    · rw [Table.get_set_ne _ _ _ _ hqf] at hq
      rw [← hfs]
      exact .inr (key _ h₀ hq)

/-- The entry of a declared identifier. -/
theorem table_entry (ht : TypedProject D project all objs) {e : Package × SourceFile} (he : e ∈ filesOf (sortedValues project))
    (hn : DistinctIdents e.1) {t : Table} (htab : tableFor e.1 (packageSymbol e.1) = some t) {i : Ident}
    (hi : i ∈ identsOf (fileEventsOf D all e.1 e.2)) {ds : List Descriptor} (hd : OnlyDeclares e.1 i ds) :
    ∃ info par, t.get i.pos = some info ∧ info = newSymInfo e.1.env (e.1.env.fromDescriptors ds) par i ∧
      ∀ docs, DocumentedAs e.2.decls i docs → info.documentation = docs := by
  obtain ⟨hp, hf, _⟩ := mem_project_files ht he
  obtain ⟨info, hinfo, _⟩ := table_of_declared ht he htab hi hd.1 (fun i' ds' h => (hd.2 i' ds' h).2)
  rcases table_entries ht hp hn htab hinfo with ⟨f, hf', hpos, _⟩ | ⟨i', ds', par, hdecl, heq, hdoc⟩
  · exact absurd hpos.symm (ht.clauses _ _ hp _ hf f (List.mem_of_mem_head? hf') i hi)
  · obtain ⟨rfl, rfl⟩ := hd.2 _ _ hdecl
    exact ⟨info, par, hinfo, heq, fun docs h => hdoc _ hf docs h⟩

theorem symbolInformation_table (hg : Collected' o project all g) (ht : TypedProject D project all objs) {c : Str} {q : Nat} {info : SymInfo}
    (h : g.getSymbolInformation c q = some info) :
    ∃ p t, (p.path, p) ∈ project ∧ tableFor p (packageSymbol p) = some t ∧ t.get q = some info := by
  unfold Global.getSymbolInformation at h
  obtain ⟨r, hr, hi⟩ := Option.bind_eq_some_iff.1 h
  cases hp : project.get c with
  | none =>
    rw [hg.others c hp] at hr
    obtain ⟨p, _, rfl⟩ := Option.map_eq_some_iff.1 hr
    simp [Table.get_nil] at hi
  | some p =>
    have hm := GoMap.mem_of_get hp
    have hpath := ht.project_keyed.path _ _ hm
    subst hpath
    obtain ⟨t, htab, hl⟩ := hg.inProject p hm
    rw [hl] at hr
    simp only [Option.some.injEq] at hr
    subst hr
    exact ⟨p, t, hm, htab, hi⟩

theorem documented_answer (scopes : Scopes) (g : Global) (r : Obj) (info : SymInfo)
    (h : (g.getSymbolOfObject scopes r).2 = .info info) (hdoc : info.documentation ≠ []) :
    ∃ c, g.getSymbolInformation c r.self.pos = some info := by
  unfold Global.getSymbolOfObject at h
  dsimp only at h
  split at h
  · simp at h
  · split at h <;> try (simp at h; done)
    split at h
    · split at h <;> try (simp at h; done)
      split at h <;> simp at h
    · split at h
      · simp at h
      · split at h
        · rename_i i hi
          obtain ⟨c, _, hc⟩ := List.exists_of_findSome?_eq_some hi
          simp only [Found.info.injEq] at h; subst h
          exact ⟨c, hc⟩
        · split at h
          · split at h
            · simp at h
            · simp only [Found.info.injEq] at h; subst h
              exact absurd rfl hdoc
          · simp at h

end

/-- **C68** (whole run; partial: see `DocumentedAs` for the declarations after one that contains another in a function literal, where
C68_lost proves the property false): what a file of the project declares is described in its document with exactly the comments that
belong to it in the source file. -/
theorem C68_whole_run_partial (D : Deps) (o : Opts) (ord : MapOrders) (w : Writer) (project all : GoMap Package) (objs : List Obj)
    (ht : TypedProject D project all objs) (hv : ValidMapOrders ord) (k : Nat) (e : Package × SourceFile)
    (he : (filesOf (sortedValues project))[k]? = some e) (path : Str) (occs : List Occurrence) (syms : List (SymInfo × List Str))
    (hm : (index D o ord w (.ok (project, all))).messages[k + 1]? = some (.document path occs syms)) (hn : DistinctIdents e.1)
    (i : Ident) (hi : i ∈ identsOf (fileEventsOf D all e.1 e.2)) (ds : List Descriptor) (hd : OnlyDeclares e.1 i ds)
    (docs : List Str) (hdocs : DocumentedAs e.2.decls i docs) :
    ∃ s ∈ syms, s.1.symbol = e.1.env.fromDescriptors ds ∧ s.1.displayName = i.name ∧ s.1.documentation = docs := by
  obtain ⟨docs', g, g', heap, ex, hvp, hg, him, t, st, hl, htab, hvis, hmsg⟩ := run_document ht hv he hm
  simp only [Message.document.injEq] at hmsg
  obtain ⟨_, rfl, rfl⟩ := hmsg
  have hE := List.mem_of_getElem? he
  obtain ⟨hp, hf, _⟩ := mem_project_files ht hE
  obtain ⟨info, par, hinfo, heq, hdoc⟩ := table_entry ht hE hn htab hi hd
  have hmem : info ∈ (((toScipDocument (fileEnv D ord (k + 1) e.1 t) D.objectString ((Filepath.rel o.moduleRoot e.2.fileName).getD []) st
      (ord.table (k + 1) t) (ord.locals (k + 1) st.locals) D.fileOf e.2.file).symbols).zip
      (documentRelationships heap e.1.path (ord.table (k + 1) t) (ord.locals (k + 1) st.locals) D.fileOf e.2.file)).map (·.1) := by
    rw [document_symbols]
    refine List.mem_append_left _ (List.mem_map.2 ⟨(i.pos, info), List.mem_filter.2 ⟨?_, ?_⟩, rfl⟩)
    · apply (hv.table _ _).mem_iff.2
      unfold Table.get at hinfo
      obtain ⟨l₁, l₂, h, _⟩ := List.lookup_eq_some_iff.1 hinfo
      rw [h]; simp
    · simp [(ht.fileSet _ _ hp _ hf).2 i hi]
  obtain ⟨z, hz, rfl⟩ := List.mem_map.1 hmem
  refine ⟨z, hz, ?_, ?_, hdoc docs hdocs⟩ <;> rw [heq] <;> rfl

/-- **C16** (whole run): let a file of the project declare an entity at identifier `i`, with these comments, and let identifier `u` of any
file refer to it.  The definition and the reference carry the diagnostic exactly if a line of the comments begins with `Deprecated:`. -/
theorem C16_whole_run (D : Deps) (o : Opts) (ord : MapOrders) (w : Writer) (project all : GoMap Package) (objs : List Obj)
    (ht : TypedProject D project all objs) (hv : ValidMapOrders ord) (a b : Nat) (e₁ e₂ : Package × SourceFile)
    (he₁ : (filesOf (sortedValues project))[a]? = some e₁) (he₂ : (filesOf (sortedValues project))[b]? = some e₂)
    (path₁ path₂ : Str) (occs₁ occs₂ : List Occurrence) (syms₁ syms₂ : List (SymInfo × List Str))
    (hm₁ : (index D o ord w (.ok (project, all))).messages[a + 1]? = some (.document path₁ occs₁ syms₁))
    (hm₂ : (index D o ord w (.ok (project, all))).messages[b + 1]? = some (.document path₂ occs₂ syms₂)) (hn : DistinctIdents e₁.1)
    (i u : Ident) (hi : i ∈ identsOf (fileEventsOf D all e₁.1 e₁.2)) (hu : u ∈ identsOf (fileEventsOf D all e₂.1 e₂.2))
    (hib : i.name ≠ go!"_") (hub : u.name ≠ go!"_") (hsi : ¬ SwitchIdent e₁.1 i) (hsu : ¬ SwitchIdent e₂.1 u)
    (ds : List Descriptor) (hdecl : OnlyDeclares e₁.1 i ds)
    (d r : Obj) (hd : e₁.1.env.defs i.uid = some d) (hr : e₂.1.env.uses u.uid = some r)
    (hpos : r.self.pos = d.self.pos) (hpkg : r.self.pkg = some e₁.1.path) (hunsafe : e₁.1.path ≠ go!"unsafe")
    (hcls : r.self.cls ≠ .nil ∧ r.self.cls ≠ .label) (docs : List Str) (hdocs : DocumentedAs e₁.2.decls i docs) :
    let sym := e₁.1.env.fromDescriptors ds
    (∃ x ∈ occs₁, x.isDef = true ∧ x.range = identSpan (sourceEnv D e₁.1) i ∧ x.symbol = sym ∧ (x.deprecated = true ↔ SaysDeprecated docs)) ∧
    (∃ x ∈ occs₂, x.isDef = false ∧ x.range = identSpan (sourceEnv D e₂.1) u ∧ x.symbol = sym ∧ (x.deprecated = true ↔ SaysDeprecated docs)) := by
  intro sym
  obtain ⟨t, info, htab, hinfo, _, ⟨x, hx, x1, x2, x3, x4⟩, ⟨y, hy, y1, y2, y3, y4⟩, _⟩ := entity_in_run D o ord w project all objs ht hv a b
    e₁ e₂ he₁ he₂ path₁ path₂ occs₁ occs₂ syms₁ syms₂ hm₁ hm₂ i u hi hu hib hub (fun x hx h => hsi ⟨x, hx, h⟩) (fun x hx h => hsu ⟨x, hx, h⟩)
    ds hdecl.1 (fun i' ds' h => (hdecl.2 i' ds' h).2) d r hd hr hpos hpkg hunsafe hcls
  obtain ⟨info', par, hinfo', _, hdoc⟩ := table_entry ht (List.mem_of_getElem? he₁) hn htab hi hdecl
  rw [hinfo] at hinfo'
  simp only [Option.some.injEq] at hinfo'
  subst hinfo'
  have hdoc := hdoc docs hdocs
  rw [hdoc] at x4 y4
  exact ⟨⟨x, hx, x1, x2, x3, by rw [x4]; exact C66_deprecated_iff docs⟩, ⟨y, hy, y1, y2, y3, by rw [y4]; exact C66_deprecated_iff docs⟩⟩

/-- **C16** (whole run, nothing else): an occurrence with the diagnostic is at an identifier that declares or uses an object, and a
package of the project declares an entity at the position of this object, under the symbol of the occurrence, with comments of which a
line begins with `Deprecated:` (or the package clause is there).  So locals and entities of dependencies never carry it. -/
theorem C16_whole_run_converse (D : Deps) (o : Opts) (ord : MapOrders) (w : Writer) (project all : GoMap Package) (objs : List Obj)
    (ht : TypedProject D project all objs) (hv : ValidMapOrders ord) (k : Nat) (e : Package × SourceFile)
    (he : (filesOf (sortedValues project))[k]? = some e) (path : Str) (occs : List Occurrence) (syms : List (SymInfo × List Str))
    (hm : (index D o ord w (.ok (project, all))).messages[k + 1]? = some (.document path occs syms))
    (hn : ∀ p, (p.path, p) ∈ project → DistinctIdents p)
    (x : Occurrence) (hx : x ∈ occs) (hdep : x.deprecated = true) :
    ∃ i d p, i ∈ identsOf (fileEventsOf D all e.1 e.2) ∧ x.range = identSpan (sourceEnv D e.1) i ∧
      (if x.isDef then e.1.env.defs i.uid = some d else e.1.env.uses i.uid = some d) ∧ (p.path, p) ∈ project ∧
      ((∃ j ds, PackageDeclares p.env (p.files.map SourceFile.node) j ds d.self.pos ∧ x.symbol = p.env.fromDescriptors ds ∧
          ∀ f ∈ p.files, ∀ docs, DocumentedAs f.decls j docs → SaysDeprecated docs) ∨
        (∃ f, p.files.head? = some f ∧ f.name.pos = d.self.pos ∧ x.symbol = packageSymbol p)) := by
  obtain ⟨docs', g, g', heap, ex, hvp, hg, him, t, st, hl, htab, hvis, hmsg⟩ := run_document ht hv he hm
  simp only [Message.document.injEq] at hmsg
  obtain ⟨_, rfl, rfl⟩ := hmsg
  have hE := List.mem_of_getElem? he
  obtain ⟨hp, hf, _⟩ := mem_project_files ht hE
  obtain ⟨i, decl, info, hev, hrange, hsym, hinfo, hcase⟩ := C16_deprecated hvis rfl x hx hdep
  rw [events_eq hg] at hev
  have hi : i ∈ identsOf (fileEventsOf D all e.1 e.2) := mem_identsOf.2 ⟨decl, hev⟩
  have key : ∀ (p : Package) (t : Table) (q : Nat), (p.path, p) ∈ project → tableFor p (packageSymbol p) = some t → t.get q = some info →
      ((∃ j ds, PackageDeclares p.env (p.files.map SourceFile.node) j ds q ∧ x.symbol = p.env.fromDescriptors ds ∧
          ∀ f ∈ p.files, ∀ docs, DocumentedAs f.decls j docs → SaysDeprecated docs) ∨
        (∃ f, p.files.head? = some f ∧ f.name.pos = q ∧ x.symbol = packageSymbol p)) := by
    intro p t q hp htab hq
    rcases table_entries ht hp (hn p hp) htab hq with ⟨f, h1, h2, h3⟩ | ⟨j, ds, par, h1, h2, h3⟩
    · exact .inr ⟨f, h1, h2, hsym.trans h3⟩
    · refine .inl ⟨j, ds, h1, by rw [hsym, h2]; rfl, ?_⟩
      intro f hf docs hd
      rw [h3 f hf docs hd] at hinfo
      exact (C66_deprecated_iff docs).1 hinfo
  rcases hcase with ⟨hdef, d, hd, hget⟩ | ⟨hdef, r, hr, hans⟩
  · exact ⟨i, d, e.1, hi, hrange, by rw [if_pos hdef]; exact hd, hp, key _ _ _ hp htab hget⟩
  · obtain ⟨c, hc⟩ := documented_answer _ _ _ _ hans (by rintro h; rw [h] at hinfo; simp [isDocDeprecated] at hinfo)
    obtain ⟨p, t', hp', htab', hq⟩ := symbolInformation_table hg ht hc
    exact ⟨i, r, p, hi, hrange, by rw [if_neg (by simp [hdef])]; exact hr, hp', key _ _ _ hp' htab' hq⟩

/-- **C68** is false after a declaration inside of a function literal: in

    // Limits.
    var (
        a = func() int { var x int; return x }
        // B is documented.
        b int
    )

the variable `b` is described without any documentation. -/
theorem C68_lost :
    let x := (⟨2, go!"x", 30⟩ : Ident)
    let b := (⟨3, go!"b", 60⟩ : Ident)
    let decl := Node.genDecl .var [.valueSpec 20 [⟨1, go!"a", 20⟩] [] [.other [.genDecl .var [.valueSpec 30 [x] [.ident ⟨9, go!"int", 32⟩] [] [] []] []]] [] [],
      .valueSpec 60 [b] [.ident ⟨8, go!"int", 62⟩] [] go!"B is documented." []] go!"Limits."
    let env : PkgEnv := { pkgPath := go!"p", module := ⟨go!"m", go!"v1"⟩, defs := fun _ => none, uses := fun _ => none, anonKey := fun _ => [], signature := fun _ => []
                          position := fun p => ⟨1, p⟩ }
    ((visitPackageSyntax env [.file ⟨0, go!"p", 8⟩ [decl]] []).bind (·.get 60)).map (·.documentation) = some [] ∧
    docList go!"B is documented." go!"Limits." = [go!"B is documented.", go!"Limits."] := by
  decide +kernel

end Verif
