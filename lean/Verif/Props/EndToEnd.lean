import Verif.Props.Determinism
import Mathlib.Data.List.Nodup
/-! # Whole runs: C11, C15, C31, C32, C34, C35 for the messages of a run, and C75 -/
namespace Verif
open Spec Index

theorem mem_identsOf {es : List Event} {i : Ident} : i ∈ identsOf es ↔ ∃ decl, Event.ident i decl ∈ es := by
  unfold identsOf
  rw [List.mem_filterMap]
  constructor
  · rintro ⟨e, he, h⟩
    cases e with
    | ident j d => simp only [Option.some.injEq] at h; subst h; exact ⟨d, he⟩
    | qualifier => simp at h
    | imp => simp at h
  · rintro ⟨d, h⟩; exact ⟨_, h, rfl⟩

section
variable {D : Deps} {o : Opts} {ord : MapOrders} {w : Writer} {project all : GoMap Package} {objs : List Obj}

theorem mem_project_files (ht : TypedProject D project all objs) {e : Package × SourceFile} (h : e ∈ filesOf (sortedValues project)) :
    (e.1.path, e.1) ∈ project ∧ e.2 ∈ e.1.files ∧ e ∈ filesOf (project.map (·.2)) := by
  obtain ⟨h1, h2⟩ := mem_filesOf.1 h
  have hp := (mem_sortedValues ht.project_keyed).1 h1
  exact ⟨hp, h2, mem_filesOf.2 ⟨List.mem_map.2 ⟨_, hp, rfl⟩, h2⟩⟩

/-- The variable of a type switch is at the position of its identifier. -/
theorem caseClauses_pos {env : FileEnv} {q : Nat} {x : Obj} (h : env.caseClauses q = some x) : x ∈ env.implicits ∧ x.self.pos = q := by
  unfold FileEnv.caseClauses at h
  exact ⟨by simpa using List.mem_of_find?_eq_some h, by simpa using List.find?_some h⟩

theorem caseClauses_none {env : FileEnv} {q : Nat} (h : ∀ x ∈ env.implicits, x.self.pos ≠ q) : env.caseClauses q = none := by
  cases hc : env.caseClauses q with
  | none => rfl
  | some x => obtain ⟨h1, h2⟩ := caseClauses_pos hc; exact absurd h2 (h x h1)

/-- What a package declares is in its table, under the symbol of its path. -/
theorem table_of_declared (ht : TypedProject D project all objs) {e : Package × SourceFile} (he : e ∈ filesOf (sortedValues project))
    {t : Table} (htab : tableFor e.1 (packageSymbol e.1) = some t) {i : Ident} (hi : i ∈ identsOf (fileEventsOf D all e.1 e.2))
    {ds : List Descriptor} (hdecl : PackageDeclares e.1.env (e.1.files.map SourceFile.node) i ds i.pos)
    (huniq : ∀ i' ds', PackageDeclares e.1.env (e.1.files.map SourceFile.node) i' ds' i.pos → ds' = ds) :
    ∃ info, t.get i.pos = some info ∧ info.symbol = e.1.env.fromDescriptors ds := by
  obtain ⟨hp, hf, _⟩ := mem_project_files ht he
  obtain ⟨t₀, ht₀, hc⟩ := C21_package_collected e.1.env (e.1.files.map SourceFile.node) (filesOk_of ht hp) []
  have hex := hc.exact i ds i.pos hdecl huniq
  obtain ⟨info, h1, h2⟩ := Option.map_eq_some_iff.1 hex
  refine ⟨info, ?_, h2⟩
  unfold tableFor at htab
  rw [ht₀] at htab
  simp only [Option.map_some, Option.some.injEq] at htab
  cases hfs : e.1.files with
  | nil => rw [hfs] at htab; simp only at htab; rw [← htab]; exact h1
  | cons f fs =>
    rw [hfs] at htab
    simp only at htab
    rw [← htab, Table.get_set_ne _ _ _ _ (ht.clauses _ _ hp _ hf f (by rw [hfs]; simp) i hi)]
    exact h1

/-- A local of a file is at the position of one of its identifiers that declares nothing in the package. -/
theorem local_at (ht : TypedProject D project all objs) (hv : ValidMapOrders ord) {e : Package × SourceFile}
    (he : e ∈ filesOf (sortedValues project)) {n : Nat} {t : Table} {l : Nat × Obj}
    (hl : l ∈ localDecls (fileEnv D ord n e.1 t) (fileEventsOf D all e.1 e.2)) :
    ∃ i ∈ identsOf (fileEventsOf D all e.1 e.2), l.1 = i.pos ∧
      ((∃ x ∈ e.1.implicits, x.self.pos = i.pos) ∨ ∃ d, e.1.env.defs i.uid = some d ∧ t.get d.self.pos = none) := by
  obtain ⟨hp, hf, _⟩ := mem_project_files ht he
  obtain ⟨ev, hev, h⟩ := List.mem_filterMap.1 hl
  cases ev with
  | qualifier => simp [localDecl] at h
  | imp => simp [localDecl] at h
  | ident i decl =>
    have hi : i ∈ identsOf (fileEventsOf D all e.1 e.2) := mem_identsOf.2 ⟨decl, hev⟩
    refine ⟨i, hi, ?_⟩
    simp only [localDecl] at h
    split at h
    · simp at h
    · split at h
      · rename_i x hx
        simp only [Option.some.injEq] at h
        subst h
        obtain ⟨h1, h2⟩ := caseClauses_pos hx
        exact ⟨h2, .inl ⟨x, (hv.implicits _ _).subset h1, h2⟩⟩
      · split at h
        · rename_i d hd
          split at h
          · simp at h
          · rename_i hn
            simp only [Option.some.injEq] at h
            subst h
            refine ⟨(ht.files _ _ hp _ hf).declared_at i hi d hd, .inr ⟨d, hd, ?_⟩⟩
            exact Option.not_isSome_iff_eq_none.1 hn
        · simp at h

/-- Identifiers of two files at one position are one identifier of one file. -/
theorem ident_at (ht : TypedProject D project all objs) {e₁ e₂ : Package × SourceFile} (h₁ : e₁ ∈ filesOf (sortedValues project))
    (h₂ : e₂ ∈ filesOf (sortedValues project)) {i j : Ident} (hi : i ∈ identsOf (fileEventsOf D all e₁.1 e₁.2))
    (hj : j ∈ identsOf (fileEventsOf D all e₂.1 e₂.2)) (h : i.pos = j.pos) : e₁ = e₂ ∧ i = j := by
  obtain ⟨hp₁, hf₁, hm₁⟩ := mem_project_files ht h₁
  obtain ⟨hp₂, hf₂, hm₂⟩ := mem_project_files ht h₂
  have a := (ht.fileSet _ _ hp₁ _ hf₁).2 i hi
  have b := (ht.fileSet _ _ hp₂ _ hf₂).2 j hj
  rw [h, b] at a
  simp only [Option.some.injEq] at a
  have e := List.inj_on_of_nodup_map ht.files_apart hm₁ hm₂ a.symm
  subst e
  exact ⟨rfl, List.inj_on_of_nodup_map (ht.files _ _ hp₁ _ hf₁).apart hi hj h⟩

/-- What is known about a document of a run. -/
theorem run_document (ht : TypedProject D project all objs) (hv : ValidMapOrders ord) {i : Nat} {e : Package × SourceFile}
    (he : (filesOf (sortedValues project))[i]? = some e) {m : Message}
    (hm : (index D o ord w (.ok (project, all))).messages[i + 1]? = some m) :
    ∃ docs g g' heap externals, indexVisitPackages o ord project all = some (docs, g) ∧ Collected' o project all g ∧
      implementations D o ord project all g = some (g', heap, externals) ∧ IsDocumentOf D o ord objs g heap (i + 1) e m := by
  obtain ⟨docs, g, g', heap, externals, e', h1, hg, h2, he', hd⟩ := run_documents D o ord w project all objs ht hv hm
    (List.getElem?_eq_some_iff.1 he).1
  rw [he] at he'
  simp only [Option.some.injEq] at he'
  subst he'
  exact ⟨docs, g, g', heap, externals, h1, hg, h2, hd⟩

end

/-- A declared entity and a reference to it in a run. -/
theorem entity_in_run (D : Deps) (o : Opts) (ord : MapOrders) (w : Writer) (project all : GoMap Package) (objs : List Obj)
    (ht : TypedProject D project all objs) (hv : ValidMapOrders ord) (a b : Nat) (e₁ e₂ : Package × SourceFile)
    (he₁ : (filesOf (sortedValues project))[a]? = some e₁) (he₂ : (filesOf (sortedValues project))[b]? = some e₂)
    (path₁ path₂ : Str) (occs₁ occs₂ : List Occurrence) (syms₁ syms₂ : List (SymInfo × List Str))
    (hm₁ : (index D o ord w (.ok (project, all))).messages[a + 1]? = some (.document path₁ occs₁ syms₁))
    (hm₂ : (index D o ord w (.ok (project, all))).messages[b + 1]? = some (.document path₂ occs₂ syms₂))
    (i u : Ident) (hi : i ∈ identsOf (fileEventsOf D all e₁.1 e₁.2)) (hu : u ∈ identsOf (fileEventsOf D all e₂.1 e₂.2))
    (hib : i.name ≠ go!"_") (hub : u.name ≠ go!"_")
    (hsi : ∀ x ∈ e₁.1.implicits, x.self.pos ≠ i.pos) (hsu : ∀ x ∈ e₂.1.implicits, x.self.pos ≠ u.pos)
    (ds : List Descriptor) (hdecl : PackageDeclares e₁.1.env (e₁.1.files.map SourceFile.node) i ds i.pos)
    (huniq : ∀ i' ds', PackageDeclares e₁.1.env (e₁.1.files.map SourceFile.node) i' ds' i.pos → ds' = ds)
    (d r : Obj) (hd : e₁.1.env.defs i.uid = some d) (hr : e₂.1.env.uses u.uid = some r)
    (hpos : r.self.pos = d.self.pos) (hpkg : r.self.pkg = some e₁.1.path) (hunsafe : e₁.1.path ≠ go!"unsafe")
    (hcls : r.self.cls ≠ .nil ∧ r.self.cls ≠ .label) :
    let sym := e₁.1.env.fromDescriptors ds
    ∃ t info, tableFor e₁.1 (packageSymbol e₁.1) = some t ∧ t.get i.pos = some info ∧ info.symbol = sym ∧
    (∃ x ∈ occs₁, x.isDef = true ∧ x.range = identSpan (sourceEnv D e₁.1) i ∧ x.symbol = sym ∧
      x.deprecated = isDocDeprecated info.documentation) ∧
    (∃ x ∈ occs₂, x.isDef = false ∧ x.range = identSpan (sourceEnv D e₂.1) u ∧ x.symbol = sym ∧
      x.deprecated = isDocDeprecated info.documentation) ∧
    (∃ x ∈ syms₁, x.1 = info) := by
  intro sym
  obtain ⟨docs, g, g', heap, ex, hvp, hg, him, t₁, st₁, hl₁, htab₁, hvis₁, hmsg₁⟩ := run_document ht hv he₁ hm₁
  obtain ⟨docs', g₂, g'₂, heap₂, ex₂, hvp', hg', him', t₂, st₂, hl₂, htab₂, hvis₂, hmsg₂⟩ := run_document ht hv he₂ hm₂
  rw [hvp] at hvp'
  simp only [Option.some.injEq, Prod.mk.injEq] at hvp'
  obtain ⟨rfl, rfl⟩ := hvp'
  simp only [Message.document.injEq] at hmsg₁ hmsg₂
  obtain ⟨_, rfl, rfl⟩ := hmsg₁
  obtain ⟨_, rfl, rfl⟩ := hmsg₂
  have hE₁ := List.mem_of_getElem? he₁
  have hE₂ := List.mem_of_getElem? he₂
  obtain ⟨hp₁, hf₁, _⟩ := mem_project_files ht hE₁
  obtain ⟨hp₂, hf₂, _⟩ := mem_project_files ht hE₂
  obtain ⟨info, hinfo, hsym⟩ := table_of_declared ht hE₁ htab₁ hi hdecl huniq
  have hdpos := (ht.files _ _ hp₁ _ hf₁).declared_at i hi d hd
  obtain ⟨decl, hev⟩ := mem_identsOf.1 hi
  obtain ⟨du, hevu⟩ := mem_identsOf.1 hu
  have hlocal : ∀ l ∈ localDecls (fileEnv D ord (b + 1) e₂.1 t₂) (fileEventsOf D all e₂.1 e₂.2), l.1 ≠ d.self.pos := by
    intro l hl hpe
    obtain ⟨j, hj, hlj, hcase⟩ := local_at ht hv hE₂ hl
    rw [hpe, hdpos] at hlj
    obtain ⟨rfl, rfl⟩ := ident_at ht hE₁ hE₂ hi hj hlj
    rcases hcase with ⟨x, hx, h⟩ | ⟨d', hd', h⟩
    · exact hsi x hx h
    · rw [hd] at hd'
      simp only [Option.some.injEq] at hd'
      subst hd'
      rw [hdpos] at h
      rw [htab₁] at htab₂
      simp only [Option.some.injEq] at htab₂
      subst htab₂
      rw [hinfo] at h
      simp at h
  have key := C15_definition_and_reference_agree hvis₁ hvis₂ i u decl du d r info
    (by rw [events_eq hg]; exact hev) hib
    (caseClauses_none (fun x hx => hsi x ((hv.implicits _ _).subset hx))) hd (by rw [hdpos]; exact hinfo)
    (by rw [events_eq hg]; exact hevu) hub (caseClauses_none (fun x hx => hsu x ((hv.implicits _ _).subset hx))) hr hpos hpkg hunsafe
    ⟨(ht.files _ _ hp₂ _ hf₂).no_package_value u hu r hr, hcls⟩ (by rw [events_eq hg]; exact hlocal)
    D.objectString ((Filepath.rel o.moduleRoot e₁.2.fileName).getD []) (ord.table (a + 1) t₁) (hv.table _ _)
    (ord.locals (a + 1) st₁.locals) D.fileOf e₁.2.file (by rw [hdpos]; exact (ht.fileSet _ _ hp₁ _ hf₁).2 i hi)
  obtain ⟨_, ⟨y, hy, k1, k2, k3, k4⟩, hdesc⟩ := key
  obtain ⟨x, hx, h1, h2, h3, h4⟩ := C16_definition hvis₁ i decl d info (by rw [events_eq hg]; exact hev) hib
    (caseClauses_none (fun x hx => hsi x ((hv.implicits _ _).subset hx))) hd (by rw [hdpos]; exact hinfo)
  refine ⟨t₁, info, htab₁, hinfo, hsym, ⟨x, hx, h1, h2, h3.trans hsym, h4⟩, ⟨y, hy, k1, k2, k3.trans hsym, k4⟩, ?_⟩
  have hmem : info ∈ (((toScipDocument (fileEnv D ord (a + 1) e₁.1 t₁) D.objectString ((Filepath.rel o.moduleRoot e₁.2.fileName).getD []) st₁
      (ord.table (a + 1) t₁) (ord.locals (a + 1) st₁.locals) D.fileOf e₁.2.file).symbols).zip
      (documentRelationships heap e₁.1.path (ord.table (a + 1) t₁) (ord.locals (a + 1) st₁.locals) D.fileOf e₁.2.file)).map (·.1) := by
    rw [document_symbols]; exact hdesc
  obtain ⟨z, hz, rfl⟩ := List.mem_map.1 hmem
  exact ⟨z, hz, rfl⟩

/-- **C15** (whole run): let a project declare an entity at identifier `i` of a file, under the descriptors `ds`, and let identifier `u`
of any file refer to it.  Then the document of the first file has a definition at `i`, the document of the second a reference at `u`,
both with the symbol made of `ds`, and the first document describes this symbol — in every run and in every map order. -/
theorem C15_whole_run (D : Deps) (o : Opts) (ord : MapOrders) (w : Writer) (project all : GoMap Package) (objs : List Obj)
    (ht : TypedProject D project all objs) (hv : ValidMapOrders ord) (a b : Nat) (e₁ e₂ : Package × SourceFile)
    (he₁ : (filesOf (sortedValues project))[a]? = some e₁) (he₂ : (filesOf (sortedValues project))[b]? = some e₂)
    (path₁ path₂ : Str) (occs₁ occs₂ : List Occurrence) (syms₁ syms₂ : List (SymInfo × List Str))
    (hm₁ : (index D o ord w (.ok (project, all))).messages[a + 1]? = some (.document path₁ occs₁ syms₁))
    (hm₂ : (index D o ord w (.ok (project, all))).messages[b + 1]? = some (.document path₂ occs₂ syms₂))
    (i u : Ident) (hi : i ∈ identsOf (fileEventsOf D all e₁.1 e₁.2)) (hu : u ∈ identsOf (fileEventsOf D all e₂.1 e₂.2))
    (hib : i.name ≠ go!"_") (hub : u.name ≠ go!"_")
    (hsi : ∀ x ∈ e₁.1.implicits, x.self.pos ≠ i.pos) (hsu : ∀ x ∈ e₂.1.implicits, x.self.pos ≠ u.pos)
    (ds : List Descriptor) (hdecl : PackageDeclares e₁.1.env (e₁.1.files.map SourceFile.node) i ds i.pos)
    (huniq : ∀ i' ds', PackageDeclares e₁.1.env (e₁.1.files.map SourceFile.node) i' ds' i.pos → ds' = ds)
    (d r : Obj) (hd : e₁.1.env.defs i.uid = some d) (hr : e₂.1.env.uses u.uid = some r)
    (hpos : r.self.pos = d.self.pos) (hpkg : r.self.pkg = some e₁.1.path) (hunsafe : e₁.1.path ≠ go!"unsafe")
    (hcls : r.self.cls ≠ .nil ∧ r.self.cls ≠ .label) :
    let sym := e₁.1.env.fromDescriptors ds
    (∃ x ∈ occs₁, x.isDef = true ∧ x.range = identSpan (sourceEnv D e₁.1) i ∧ x.symbol = sym) ∧
    (∃ x ∈ occs₂, x.isDef = false ∧ x.range = identSpan (sourceEnv D e₂.1) u ∧ x.symbol = sym) ∧
    (∃ x ∈ syms₁, x.1.symbol = sym) := by
  intro sym
  obtain ⟨t, info, _, _, h, ⟨x, hx, x1, x2, x3, _⟩, ⟨y, hy, y1, y2, y3, _⟩, z, hz, rfl⟩ := entity_in_run D o ord w project all objs ht hv a b
    e₁ e₂ he₁ he₂ path₁ path₂ occs₁ occs₂ syms₁ syms₂ hm₁ hm₂ i u hi hu hib hub hsi hsu ds hdecl huniq d r hd hr hpos hpkg hunsafe hcls
  exact ⟨⟨x, hx, x1, x2, x3⟩, ⟨y, hy, y1, y2, y3⟩, z, hz, h⟩

section
variable {D : Deps} {o : Opts} {ord : MapOrders} {w : Writer} {project all : GoMap Package} {objs : List Obj}

theorem packageOccurrence_local (p : Package) (f : SourceFile) : isLocalSymbol (packageOccurrence p (packageSymbol p) f).symbol = false :=
  (C02_global_not_local _ _ 0).1

end

/-- **C11** (whole run): in every document of a run, each local symbol that occurs is described exactly once. -/
theorem C11_whole_run (D : Deps) (o : Opts) (ord : MapOrders) (w : Writer) (project all : GoMap Package) (objs : List Obj)
    (ht : TypedProject D project all objs) (hv : ValidMapOrders ord) (i : Nat) (e : Package × SourceFile)
    (he : (filesOf (sortedValues project))[i]? = some e) (path : Str) (occs : List Occurrence) (syms : List (SymInfo × List Str))
    (hm : (index D o ord w (.ok (project, all))).messages[i + 1]? = some (.document path occs syms))
    (x : Occurrence) (hx : x ∈ occs) (hl : isLocalSymbol x.symbol = true) :
    ∃ s, (syms.map (·.1)).filter (·.symbol == x.symbol) = [s] := by
  obtain ⟨docs, g, g', heap, ex, hvp, hg, him, t, st, hlk, htab, hvis, hmsg⟩ := run_document ht hv he hm
  simp only [Message.document.injEq] at hmsg
  obtain ⟨_, rfl, rfl⟩ := hmsg
  have hgs := globalSymbols_of hg ht
  have hT := packageTable_of htab
  obtain ⟨h1, h2, h3⟩ := C11_locals_described hvis hgs (packageOccurrence_local _ _) D.objectString
    ((Filepath.rel o.moduleRoot e.2.fileName).getD []) (ord.table (i + 1) t) (hv.table _ _) (ord.locals (i + 1) st.locals) (hv.locals _ _)
    (fun q info hq => hgs.tables _ _ _ _ hlk (Table.get_of_mem hT.uniq hq)) D.fileOf e.2.file
  obtain ⟨s, hs, hse⟩ := h3 x hx hl
  obtain ⟨k, hk, hsk⟩ := h2 s hs (by rw [hse]; exact hl)
  obtain ⟨s', hs', _⟩ := h1 k _ (List.getElem?_eq_getElem hk)
  refine ⟨s', ?_⟩
  rw [document_symbols]
  rw [← hse, hsk]
  exact hs'

/-- **C75.** In every document of a run, each symbol that has a definition occurrence is described, except that the package symbol
is described in one document of the package only (C58). -/
theorem C75_definitions_described (D : Deps) (o : Opts) (ord : MapOrders) (w : Writer) (project all : GoMap Package) (objs : List Obj)
    (ht : TypedProject D project all objs) (hv : ValidMapOrders ord) (i : Nat) (e : Package × SourceFile)
    (he : (filesOf (sortedValues project))[i]? = some e) (path : Str) (occs : List Occurrence) (syms : List (SymInfo × List Str))
    (hm : (index D o ord w (.ok (project, all))).messages[i + 1]? = some (.document path occs syms))
    (x : Occurrence) (hx : x ∈ occs) (hdef : x.isDef = true) (hpk : x.symbol ≠ packageSymbol e.1) :
    ∃ s ∈ syms, s.1.symbol = x.symbol := by
  by_cases hl : isLocalSymbol x.symbol = true
  · obtain ⟨s, hs⟩ := C11_whole_run D o ord w project all objs ht hv i e he path occs syms hm x hx hl
    have : s ∈ (syms.map (·.1)).filter (·.symbol == x.symbol) := by rw [hs]; simp
    obtain ⟨h1, h2⟩ := List.mem_filter.1 this
    obtain ⟨z, hz, rfl⟩ := List.mem_map.1 h1
    exact ⟨z, hz, by simpa using h2⟩
  · obtain ⟨docs, g, g', heap, ex, hvp, hg, him, t, st, hlk, htab, hvis, hmsg⟩ := run_document ht hv he hm
    simp only [Message.document.injEq] at hmsg
    obtain ⟨_, rfl, rfl⟩ := hmsg
    obtain ⟨hp, hf, _⟩ := mem_project_files ht (List.mem_of_getElem? he)
    rw [hvis.occs] at hx
    rcases List.mem_cons.1 hx with rfl | hx
    · exact absurd rfl hpk
    · obtain ⟨a, ev, b, hes, hx⟩ := mem_occsFrom _ _ _ hx
      rw [events_eq hg] at hes
      cases ev with
      | qualifier j x' imported =>
        simp only [occsAt] at hx
        split at hx
        · simp at hx; subst hx; simp at hdef
        · simp at hx
      | imp uid name pp =>
        simp only [occsAt, importOccs] at hx
        exfalso
        split at hx
        · simp at hx
        · split at hx
          · simp at hx
          · simp only [List.mem_append] at hx
            rcases hx with hx | hx
            · split at hx
              · simp at hx
              · split at hx
                · simp at hx
                · simp at hx; subst hx; simp at hdef
            · simp at hx; subst hx; simp at hdef
      | ident j decl =>
        have hj : j ∈ identsOf (fileEventsOf D all e.1 e.2) := mem_identsOf.2 ⟨decl, by rw [hes]; simp⟩
        simp only [occsAt, List.mem_append] at hx
        rcases hx with hx | hx
        · unfold defOccs at hx
          split at hx
          · simp at hx
          · split at hx
            · simp at hx; subst hx
              exact absurd (localSymbol_prefix _) hl
            · split at hx
              · simp at hx
              · rename_i d hd
                simp only at hx
                split at hx
                · rename_i info hinfo
                  simp at hx; subst hx
                  have hdpos := (ht.files _ _ hp _ hf).declared_at j hj d hd
                  have hmem : info ∈ (ord.table (i + 1) t).symbolsForFile D.fileOf e.2.file := by
                    refine (C19_listed_iff _ _ (hv.table _ _) _ _ _).2 ⟨d.self.pos, Table.mem_of_get hinfo, ?_⟩
                    rw [hdpos]; exact (ht.fileSet _ _ hp _ hf).2 j hj
                  have : info ∈ (((toScipDocument (fileEnv D ord (i + 1) e.1 t) D.objectString ((Filepath.rel o.moduleRoot e.2.fileName).getD []) st
                      (ord.table (i + 1) t) (ord.locals (i + 1) st.locals) D.fileOf e.2.file).symbols).zip
                      (documentRelationships heap e.1.path (ord.table (i + 1) t) (ord.locals (i + 1) st.locals) D.fileOf e.2.file)).map (·.1) := by
                    rw [document_symbols]; exact List.mem_append_left _ hmem
                  obtain ⟨z, hz, rfl⟩ := List.mem_map.1 this
                  exact ⟨z, hz, rfl⟩
                · simp at hx; subst hx
                  exact absurd (localSymbol_prefix _) hl
        · exfalso
          unfold refOccs at hx
          split at hx
          · simp at hx
          · split at hx
            · simp at hx
            · split at hx
              · simp at hx; subst hx; simp at hdef
              · simp at hx

/-! ## Relationships -/

/-- The packages as the extractor sees them in a run. -/
def Spec.projectPkgs (ord : MapOrders) (project : GoMap Package) : List Impl.Pkg :=
  (ord.extractProject (project.map (·.2))).map (Package.impl ord)
def Spec.allPkgs (ord : MapOrders) (all : GoMap Package) : List Impl.Pkg := (ord.extractAll (all.map (·.2))).map (Package.impl ord)

/-- The symbol table after the collecting pass of a run. -/
def Spec.TableOfRun (o : Opts) (ord : MapOrders) (project all : GoMap Package) (g : Global) : Prop :=
  ∃ docs, indexVisitPackages o ord project all = some (docs, g)

section
variable {D : Deps} {o : Opts} {ord : MapOrders} {w : Writer} {project all : GoMap Package} {objs : List Obj}

theorem implementations_run (hs : o.skipImplementations = false) {g g' heap externals}
    (h : implementations D o ord project all g = some (g', heap, externals)) :
    ∃ r, Impl.addImplementations D.ext D.scopes g (fun _ => []) (projectPkgs ord project) (allPkgs ord all) ord.impls = some r ∧
      heap = r.heap ∧ externals = r.external.map (fun s => .external s.sym (r.heap s.ref)) := by
  unfold implementations at h
  rw [if_neg (by simp [hs])] at h
  obtain ⟨r, hr, he⟩ := Option.map_eq_some_iff.1 h
  simp only [Prod.mk.injEq] at he
  exact ⟨r, hr, he.2.1.symm, he.2.2.symm⟩

theorem implementations_skip (hs : o.skipImplementations = true) {g g' heap externals}
    (h : implementations D o ord project all g = some (g', heap, externals)) : heap = (fun _ => []) ∧ externals = [] := by
  unfold implementations at h
  rw [if_pos hs] at h
  simp only [Option.some.injEq, Prod.mk.injEq] at h
  exact ⟨h.2.1.symm, h.2.2.symm⟩

end

/-- **C31, C34** (whole run): in the document of a file, the relationships of a description are in strictly increasing order of symbols
without duplicates, and each of them is real: the description is that of an entity declared at a position `q` of this file, which is a
type or a method of a type that implements an interface, and the relationship names this interface or its method. Locals have no
relationships, and with implementations skipped nothing has. -/
theorem C31_whole_run (D : Deps) (o : Opts) (ord : MapOrders) (w : Writer) (project all : GoMap Package) (objs : List Obj)
    (ht : TypedProject D project all objs) (hv : ValidMapOrders ord) (i : Nat) (e : Package × SourceFile)
    (he : (filesOf (sortedValues project))[i]? = some e) (path : Str) (occs : List Occurrence) (syms : List (SymInfo × List Str))
    (hm : (index D o ord w (.ok (project, all))).messages[i + 1]? = some (.document path occs syms)) :
    ∃ g, TableOfRun o ord project all g ∧ ∀ s ∈ syms,
      s.2.Pairwise (fun a b => Str.lt a b = true) ∧ s.2.Nodup ∧
      ∀ x ∈ s.2, o.skipImplementations = false ∧ isLocalSymbol s.1.symbol = false ∧
        ∃ q, D.fileOf q = some e.2.file ∧ g.getSymbolInformation e.1.path q = some s.1 ∧
          ∃ b b', (b = true ∨ b' = true) ∧
            ShouldRelate D.ext D.scopes g (projectPkgs ord project) (allPkgs ord all) b b' (.entry e.1.path q) x := by
  obtain ⟨docs, g, g', heap, ex, hvp, hg, him, t, st, hlk, htab, hvis, hmsg⟩ := run_document ht hv he hm
  refine ⟨g, ⟨docs, hvp⟩, ?_⟩
  simp only [Message.document.injEq] at hmsg
  obtain ⟨_, _, rfl⟩ := hmsg
  rw [document_pairs]
  have hT := packageTable_of htab
  intro s hs
  rcases List.mem_append.1 hs with hs | hs
  · obtain ⟨⟨q, info⟩, hq, rfl⟩ := List.mem_map.1 hs
    simp only [List.mem_filter, beq_iff_eq] at hq
    obtain ⟨hq, hfile⟩ := hq
    have hget := Table.get_of_mem hT.uniq ((hv.table _ _).subset hq)
    have hinfo : g.getSymbolInformation e.1.path q = some info := by
      unfold Global.getSymbolInformation
      rw [hlk]; exact hget
    cases hskip : o.skipImplementations with
    | true =>
      obtain ⟨rfl, _⟩ := implementations_skip hskip him
      simp
    | false =>
      obtain ⟨r, hr, rfl, _⟩ := implementations_run hskip him
      have hcons := consistent_of hg ht hv
      have hsub := impl_sub ht hv
      refine ⟨?_, ?_, ?_⟩
      · rcases C34_sorted_duplicate_free hcons hsub hv.impls hr (.entry e.1.path q) with h | h
        · simp only [h]; exact .nil
        · exact h.1
      · rcases C34_sorted_duplicate_free hcons hsub hv.impls hr (.entry e.1.path q) with h | h
        · simp only [h]; exact .nil
        · exact h.2.1
      · intro x hx
        refine ⟨rfl, (globalSymbols_of hg ht).tables _ _ _ _ hlk hget, q, hfile, hinfo, ?_⟩
        rcases C31_added_relationships_are_real hcons hsub hv.impls hr _ x hx with h | h
        · simp at h
        · exact h
  · obtain ⟨l, _, rfl⟩ := List.mem_map.1 hs
    simp

/-- **C32** (whole run; partial as C32): if a project type, declared at position `q` of a file, implements a non-empty interface that the
run knows (and whose methods are exported, or that is declared in the same package), then the document of the file describes the type
with a relationship to the interface. -/
theorem C32_whole_run_partial (D : Deps) (o : Opts) (ord : MapOrders) (w : Writer) (project all : GoMap Package) (objs : List Obj)
    (ht : TypedProject D project all objs) (hv : ValidMapOrders ord) (hs : o.skipImplementations = false)
    (hd : DistinctTypes D o ord project all) (n : Nat) (e : Package × SourceFile)
    (he : (filesOf (sortedValues project))[n]? = some e) (path : Str) (occs : List Occurrence) (syms : List (SymInfo × List Str))
    (hm : (index D o ord w (.ok (project, all))).messages[n + 1]? = some (.document path occs syms))
    (g : Global) (hg : TableOfRun o ord project all g) (t i : Impl.NamedT) (q : Nat) (sym pt qi : Str) (si : Impl.SymRef) (b : Bool)
    (htd : Described D.scopes g true (projectPkgs ord project) t ⟨.entry e.1.path q, sym⟩ pt) (htc : t.isIface = false)
    (hq : D.fileOf q = some e.2.file)
    (hid : Described D.scopes g b (side (projectPkgs ord project) (allPkgs ord all) b) i si qi) (hii : i.isIface = true)
    (hne : i.methods ≠ []) (himp : ImplementsSome D.ext t i) (hx : AllExported i ∨ pt = qi) :
    ∃ s ∈ syms, s.1.symbol = sym ∧ si.sym ∈ s.2 := by
  obtain ⟨docs₀, hvp₀⟩ := hg
  obtain ⟨docs, g₁, g', heap, ex, hvp, hg, him, tab, st, hlk, htab, hvis, hmsg⟩ := run_document ht hv he hm
  rw [hvp₀] at hvp
  simp only [Option.some.injEq, Prod.mk.injEq] at hvp
  obtain ⟨rfl, rfl⟩ := hvp
  simp only [Message.document.injEq] at hmsg
  obtain ⟨_, _, rfl⟩ := hmsg
  rw [document_pairs]
  obtain ⟨r, hr, rfl, _⟩ := implementations_run hs him
  have hrel := (C32_every_implementation_partial (consistent_of hg ht hv) (impl_sub ht hv) hv.impls (hd docs₀ g hvp₀) hr htd htc hid hii hne
    himp hx).1
  have hinfo : ∃ info, tab.get q = some info ∧ info.symbol = sym := by
    generalize hst : (⟨.entry e.1.path q, sym⟩ : Impl.SymRef) = st' at htd
    cases htd with
    | source h1 h2 h3 h4 h5 h6 h7 h8 =>
      simp only [Impl.SymRef.mk.injEq, Impl.Ref.entry.injEq] at hst
      obtain ⟨⟨e1, e2⟩, e3⟩ := hst
      rw [← e1, hlk] at h7
      simp only [Option.some.injEq] at h7
      subst h7
      rw [← e2] at h8
      exact ⟨_, h8, e3.symm⟩
    | exported => simp at hst
  obtain ⟨info, h1, h2⟩ := hinfo
  refine ⟨(info, r.heap (.entry e.1.path q)), List.mem_append_left _ (List.mem_map.2 ⟨(q, info), ?_, rfl⟩), h2, hrel⟩
  refine List.mem_filter.2 ⟨(hv.table _ _).symm.subset (Table.mem_of_get h1), by simp [hq]⟩

/-- **C35** (whole run): a successful run writes an external symbol exactly for those dependency types that implement a project interface
of exported methods, with relationships to exactly these interfaces; with implementations skipped it writes none. -/
theorem C35_whole_run (D : Deps) (o : Opts) (ord : MapOrders) (w : Writer) (project all : GoMap Package) (objs : List Obj)
    (ht : TypedProject D project all objs) (hv : ValidMapOrders ord) (hd : DistinctTypes D o ord project all)
    (g : Global) (hg : TableOfRun o ord project all g)
    (hdd : DescriptionsDistinct D.scopes g (projectPkgs ord project) (allPkgs ord all))
    (hok : (index D o ord w (.ok (project, all))).outcome = .ok) :
    (o.skipImplementations = true → ∀ sym rels, .external sym rels ∉ (index D o ord w (.ok (project, all))).messages) ∧
    (o.skipImplementations = false →
      (∀ sym, (∃ rels, .external sym rels ∈ (index D o ord w (.ok (project, all))).messages) ↔
        ∃ t ref p i si qi, Described D.scopes g false (Impl.remotePackages (projectPkgs ord project) (allPkgs ord all)) t ⟨ref, sym⟩ p ∧
          t.isIface = false ∧ Described D.scopes g true (projectPkgs ord project) i si qi ∧ i.isIface = true ∧ i.methods ≠ [] ∧
          AllExported i ∧ ImplementsSome D.ext t i) ∧
      (∀ sym rels, .external sym rels ∈ (index D o ord w (.ok (project, all))).messages → ∃ t ref p,
        Described D.scopes g false (Impl.remotePackages (projectPkgs ord project) (allPkgs ord all)) t ⟨ref, sym⟩ p ∧
        ∀ x, x ∈ rels ↔ ∃ i si qi, Described D.scopes g true (projectPkgs ord project) i si qi ∧ i.isIface = true ∧ i.methods ≠ [] ∧
          AllExported i ∧ ImplementsSome D.ext t i ∧ x = si.sym)) := by
  obtain ⟨docs₀, hvp₀⟩ := hg
  obtain ⟨pr, al, docs, g₁, g', heap, ds, ex, hl, hvp, him, hmsgs, hpaths, hlen⟩ := C49_success_is_complete D o ord w _ hok
  simp only [Except.ok.injEq, Prod.mk.injEq] at hl
  obtain ⟨rfl, rfl⟩ := hl
  rw [hvp₀] at hvp
  simp only [Option.some.injEq, Prod.mk.injEq] at hvp
  obtain ⟨rfl, rfl⟩ := hvp
  have hg := collected_global ht.project_keyed ht.all_keyed ht.sub hv.all hvp₀
  have hnoext : ∀ sym rels, Message.external sym rels ∉ ds := by
    intro sym rels hmem
    have h1 : ∀ l : List Message, (documentPaths l).length ≤ l.length := fun l => List.length_filterMap_le _ _
    obtain ⟨a, b, rfl⟩ := List.append_of_mem hmem
    have h2 : (documentPaths (a ++ Message.external sym rels :: b)).length = (a ++ Message.external sym rels :: b).length := by
      rw [hpaths, hlen, List.length_map]
    have h3 : documentPaths (a ++ Message.external sym rels :: b) = documentPaths a ++ documentPaths b := by
      simp [documentPaths, List.filterMap_append]
    rw [h3] at h2
    have ha := h1 a
    have hb := h1 b
    simp only [List.length_append, List.length_cons] at h2
    omega
  have hmem : ∀ sym rels, Message.external sym rels ∈ (index D o ord w (.ok (project, all))).messages ↔ Message.external sym rels ∈ ex := by
    intro sym rels
    rw [hmsgs]
    simp [hnoext]
  constructor
  · intro hs sym rels h
    rw [hmem, (implementations_skip hs him).2] at h
    simp at h
  · intro hs
    obtain ⟨r, hr, rfl, rfl⟩ := implementations_run hs him
    obtain ⟨h1, h2⟩ := C35_external_symbols (consistent_of hg ht hv) (impl_sub ht hv) hv.impls (hd docs₀ g hvp₀) hdd (fun _ => rfl) hr
    have hex : ∀ sym rels, Message.external sym rels ∈ r.external.map (fun s => Message.external s.sym (r.heap s.ref)) ↔
        ∃ s ∈ r.external, s.sym = sym ∧ r.heap s.ref = rels := by
      intro sym rels
      simp
    constructor
    · intro sym
      constructor
      · rintro ⟨rels, h⟩
        obtain ⟨s, hs, rfl, _⟩ := (hex _ _).1 ((hmem _ _).1 h)
        obtain ⟨t, p, i, si, qi, hh⟩ := (h1 s).1 hs
        exact ⟨t, s.ref, p, i, si, qi, hh⟩
      · rintro ⟨t, ref, p, i, si, qi, hh⟩
        exact ⟨_, (hmem _ _).2 ((hex _ _).2 ⟨⟨ref, sym⟩, (h1 _).2 ⟨t, p, i, si, qi, hh⟩, rfl, rfl⟩)⟩
    · intro sym rels h
      obtain ⟨s, hs, rfl, rfl⟩ := (hex _ _).1 ((hmem _ _).1 h)
      obtain ⟨t, p, i, si, qi, hD, hti, _⟩ := (h1 s).1 hs
      exact ⟨t, s.ref, p, hD, h2 t s p hD hti⟩

end Verif
