import Verif.Props.Project
/-! # C58: package clauses, and the documents of a run -/
namespace Verif
open Spec Index

theorem writeDescriptors_ne_nil (d : Descriptor) (ds : List Descriptor) : writeDescriptors (d :: ds) ≠ [] := by
  cases d with
  | mk name suffix => cases suffix <;> simp [writeDescriptors, writeDescriptor, Suffix.chars]

/-- A symbol with more descriptors is another symbol, whatever the module. -/
theorem formatSymbol_longer (p : ScipPackage) (d : Descriptor) (ds : List Descriptor) (h : ds ≠ []) :
    formatSymbol p (d :: ds) ≠ formatSymbol p [d] := by
  intro e
  cases ds with
  | nil => exact h rfl
  | cons d' ds =>
    have := writeDescriptors_ne_nil d' ds
    apply this
    have e' : writeDescriptors (d :: d' :: ds) = writeDescriptors [d] := by
      unfold formatSymbol at e
      simpa using e
    simp only [writeDescriptors, List.append_nil] at e'
    have := congrArg List.length e'
    simp only [List.length_append] at this
    apply List.eq_nil_of_length_eq_zero
    simp only [writeDescriptors, List.length_append]
    omega

theorem Table.mem_of_get {t : Table} {q : Nat} {i : SymInfo} (h : t.get q = some i) : (q, i) ∈ t := by
  unfold Table.get at h
  obtain ⟨a, b, rfl, _⟩ := List.lookup_eq_some_iff.1 h
  simp

theorem Table.get_of_mem {t : Table} (hu : t.Uniq) {q : Nat} {i : SymInfo} (h : (q, i) ∈ t) : t.get q = some i := by
  unfold Table.Uniq at hu
  unfold Table.get
  induction t with
  | nil => simp at h
  | cons e t ih =>
    simp only [List.map_cons, List.nodup_cons] at hu
    rcases List.mem_cons.1 h with rfl | h
    · simp
    · have : (q == e.1) = false := by
        rw [beq_eq_false_iff_ne]
        rintro rfl
        exact hu.1 (List.mem_map.2 ⟨_, h, rfl⟩)
      rw [List.lookup_cons, this]
      exact ih hu.2 h

/-- The table of a package. -/
structure PackageTable (p : Package) (t : Table) : Prop where
  uniq : t.Uniq
  clause : ∀ f fs, p.files = f :: fs → t.get f.name.pos = some (packageInfo p (packageSymbol p))
  others : ∀ q info, t.get q = some info → (∃ f fs, p.files = f :: fs ∧ q = f.name.pos ∧ info = packageInfo p (packageSymbol p)) ∨
    ∃ ds, ds ≠ [] ∧ info.symbol = formatSymbol ⟨p.env.module.path, p.env.module.version⟩ (⟨p.path, .nspace⟩ :: ds)

theorem packageTable_of {p : Package} {t : Table} (h : tableFor p (packageSymbol p) = some t) : PackageTable p t := by
  unfold tableFor at h
  cases hv : visitPackageSyntax p.env (p.files.map SourceFile.node) [] with
  | none => rw [hv] at h; simp at h
  | some t₀ =>
    rw [hv] at h
    simp only [Option.map_some, Option.some.injEq] at h
    obtain ⟨rs, hrs, _⟩ := visitPackageSyntax_owned _ _ _ _ hv
    have hu : t₀.Uniq := by rw [hrs]; exact Table.uniq_setAll _ _ Table.uniq_nil
    have ho : ∀ q info, t₀.get q = some info → ∃ ds, ds ≠ [] ∧
        info.symbol = formatSymbol ⟨p.env.module.path, p.env.module.version⟩ (⟨p.path, .nspace⟩ :: ds) := by
      intro q info hq
      rcases C70_symbols_of_own_package _ _ _ _ hv q info hq with h | h
      · simp [Table.get_nil] at h
      · exact h
    cases hf : p.files with
    | nil =>
      rw [hf] at h
      simp only at h
      subst h
      exact ⟨hu, by simp [hf], fun q info hq => .inr (ho q info hq)⟩
    | cons f fs =>
      rw [hf] at h
      simp only at h
      have hself : t.get f.name.pos = some (packageInfo p (packageSymbol p)) := by
        rw [← h, Table.get_set_self_cases]
        cases hg : t₀.get f.name.pos with
        | none => rfl
        | some i =>
          obtain ⟨ds, hne, hs⟩ := ho _ _ hg
          have : i.symbol ≠ (packageInfo p (packageSymbol p)).symbol := by
            rw [hs]; exact formatSymbol_longer _ _ _ hne
          simp only [if_neg this]
      refine ⟨by rw [← h]; exact Table.uniq_set _ _ _ hu, ?_, ?_⟩
      · intro f' fs' e
        rw [hf] at e
        simp only [List.cons.injEq] at e
        rw [← e.1]; exact hself
      · intro q info hq
        by_cases hqe : q = f.name.pos
        · subst hqe
          rw [hself] at hq
          simp only [Option.some.injEq] at hq
          exact .inl ⟨f, fs, hf, rfl, hq.symm⟩
        · rw [← h, Table.get_set_ne _ _ _ _ hqe] at hq
          exact .inr (ho q info hq)

/-- After the collecting pass all symbols are global. -/
theorem globalSymbols_of {D : Deps} {o : Opts} {project all : GoMap Package} {objs : List Obj} {g : Global}
    (hg : Collected' o project all g) (ht : TypedProject D project all objs) : GlobalSymbols g := by
  refine ⟨?_, ?_, by rw [hg.composer]; rfl⟩
  · intro path r pos info hl hi
    cases hp : project.get path with
    | none =>
      rw [hg.others path hp] at hl
      obtain ⟨p, _, rfl⟩ := Option.map_eq_some_iff.1 hl
      simp [Table.get_nil] at hi
    | some p =>
      have hm := GoMap.mem_of_get hp
      have e := ht.project_keyed.path _ _ hm
      subst e
      obtain ⟨t, htab, hl'⟩ := hg.inProject p hm
      rw [hl'] at hl
      simp only [Option.some.injEq] at hl
      subst hl
      rcases (packageTable_of htab).others pos info hi with ⟨_, _, _, _, rfl⟩ | ⟨ds, _, hs⟩
      · exact (C02_global_not_local _ _ 0).1
      · rw [hs]; exact (C02_global_not_local _ _ 0).1
  · intro path s hs
    rw [hg.packages] at hs
    obtain ⟨p, _, rfl⟩ := Option.map_eq_some_iff.1 hs
    exact (C02_global_not_local _ _ 0).1

/-- The messages of a run after the metadata are the documents of the files: each the result of visiting its file. -/
theorem run_documents (D : Deps) (o : Opts) (ord : MapOrders) (w : Writer) (project all : GoMap Package) (objs : List Obj)
    (ht : TypedProject D project all objs) (hv : ValidMapOrders ord) {i : Nat} {m : Message}
    (hi : (index D o ord w (.ok (project, all))).messages[i + 1]? = some m) (hlt : i < (filesOf (sortedValues project)).length) :
    ∃ docs g g' heap externals e, indexVisitPackages o ord project all = some (docs, g) ∧ Collected' o project all g ∧
      implementations D o ord project all g = some (g', heap, externals) ∧
      (filesOf (sortedValues project))[i]? = some e ∧ IsDocumentOf D o ord objs g heap (i + 1) e m := by
  rcases index_stages D o ord w (.ok (project, all)) with ⟨e, _, hr⟩ | ⟨hw, ⟨e, hl, _⟩ | ⟨pr, al, hl, ⟨hc, hr⟩ |
    ⟨docs, g, g', heap, externals, hvp, him, rd, hrd, hr⟩⟩⟩
  · rw [hr] at hi; simp at hi
  · simp at hl
  · rw [hr] at hi; simp at hi
  · simp only [Except.ok.injEq, Prod.mk.injEq] at hl
    obtain ⟨rfl, rfl⟩ := hl
    have hg := collected_global ht.project_keyed ht.all_keyed ht.sub hv.all hvp
    obtain ⟨ds, h1, _, h3, h4⟩ := writeDocuments_documents (heap := heap) hg ht hv w _ g'
      [.metadata (metadata D o)] (docs_of ht hv hvp) (implementations_asked hg ht hv him)
    rw [← hrd] at h1 h3
    have hds : ds[i]? = some m := by
      rcases hr with ⟨ho, hr⟩ | ⟨ho, hr⟩
      · have hlen := h3 ho
        obtain ⟨es, he⟩ : ∃ es, (index D o ord w (.ok (project, all))).messages = rd.messages ++ es := by
          rw [hr]
          generalize rd.messages = done
          clear * -
          induction externals generalizing done with
          | nil => exact ⟨[], by simp [writeExternals]⟩
          | cons m ms ih =>
            unfold writeExternals
            cases w done m with
            | some e => exact ⟨[m], rfl⟩
            | none =>
              obtain ⟨es, he⟩ := ih (done ++ [m])
              exact ⟨m :: es, by simp only [he]; simp⟩
        rw [he, h1] at hi
        simp only [List.singleton_append, List.cons_append, List.nil_append, List.getElem?_cons_succ] at hi
        rwa [List.getElem?_append_left (by omega)] at hi
      · rw [hr, h1] at hi
        simpa using hi
    obtain ⟨e, he, hd⟩ := h4 i m hds
    refine ⟨docs, g, g', heap, externals, e, hvp, hg, him, he, ?_⟩
    simpa [Nat.add_comm] using hd

/-- The descriptions of a document, without the relationships. -/
theorem document_symbols (env : FileEnv) (os : Obj → Str) (path : Str) (st : FState) (order : Table) (lorder : List (Nat × Local))
    (fileOf : Nat → Option Nat) (file : Nat) (heap : Impl.Heap) (pkg : Str) :
    (((toScipDocument env os path st order lorder fileOf file).symbols).zip
      (documentRelationships heap pkg order lorder fileOf file)).map (·.1) =
    order.symbolsForFile fileOf file ++ lorder.map (fun e => localInfo env os e.2) := by
  rw [List.map_fst_zip]
  · rfl
  · simp [toScipDocument, documentRelationships, Table.symbolsForFile]

theorem filter_unique {α β : Type} [BEq β] [LawfulBEq β] (f : α → β) (l : List α) (x : α) (hx : x ∈ l) (hn : l.Nodup)
    (h : ∀ y ∈ l, f y = f x → y = x) : l.filter (fun y => f y == f x) = [x] := by
  induction l with
  | nil => simp at hx
  | cons a l ih =>
    simp only [List.nodup_cons] at hn
    by_cases e : f a = f x
    · have ea := h a (by simp) e
      subst ea
      rw [List.filter_cons_of_pos (by simp)]
      congr 1
      rw [List.filter_eq_nil_iff]
      intro y hy hf
      have := h y (by simp [hy]) (by simpa using hf)
      subst this
      exact hn.1 hy
    · rw [List.filter_cons_of_neg (by simpa using e)]
      refine ih ?_ hn.2 (fun y hy => h y (by simp [hy]))
      rcases List.mem_cons.1 hx with rfl | hx
      · exact absurd rfl e
      · exact hx

/-- **C58.** The document of a file starts with the definition of the package symbol at the package clause, and defines it nowhere
else. -/
theorem C58_clause_definition (D : Deps) (o : Opts) (ord : MapOrders) (w : Writer) (project all : GoMap Package) (objs : List Obj)
    (ht : TypedProject D project all objs) (hv : ValidMapOrders ord) (i : Nat) (e : Package × SourceFile)
    (he : (filesOf (sortedValues project))[i]? = some e) (path : Str) (occs : List Occurrence) (syms : List (SymInfo × List Str))
    (hm : (index D o ord w (.ok (project, all))).messages[i + 1]? = some (.document path occs syms)) :
    let q := e.1.env.position e.2.name.pos
    ∃ rest, occs = ⟨[q.line - 1, q.col - 1, q.col - 1 + e.2.name.name.length], packageSymbol e.1, true, none, false⟩ :: rest ∧
      ∀ x ∈ rest, x.isDef = true → x.symbol ≠ packageSymbol e.1 := by
  intro q
  obtain ⟨docs, g, g', heap, externals, e', _, hg, _, he', hd⟩ := run_documents D o ord w project all objs ht hv hm
    (List.getElem?_eq_some_iff.1 he).1
  rw [he] at he'
  simp only [Option.some.injEq] at he'
  subst he'
  obtain ⟨h1, hf⟩ := mem_filesOf.1 (List.mem_of_getElem? he)
  have hp := (mem_sortedValues ht.project_keyed).1 h1
  obtain ⟨t, st, _, htab, hvis, hmsg⟩ := hd
  simp only [Message.document.injEq] at hmsg
  obtain ⟨_, rfl, _⟩ := hmsg
  rw [hvis.occs]
  refine ⟨occsFrom (fileEnv D ord (i + 1) e.1 t) g [] (fileEvents (fileEnv D ord (i + 1) e.1 t) g e.2.decls), ?_, ?_⟩
  · unfold packageOccurrence
    rw [rangeFromName_eq' _ _ (ht.positions _ _ hp _) (ht.clause_names _ _ hp _ hf)]
  · intro x hx hdef
    obtain ⟨a, ev, b, hes, hx⟩ := mem_occsFrom _ _ _ hx
    cases ev with
    | qualifier i o' imported =>
      simp only [occsAt] at hx
      split at hx
      · simp at hx; subst hx; simp at hdef
      · simp at hx
    | imp uid name pathPos =>
      exfalso
      simp only [occsAt, importOccs] at hx
      split at hx
      · simp at hx
      · split at hx
        · simp at hx
        · simp only [List.mem_append, List.mem_singleton] at hx
          rcases hx with hx | rfl
          · split at hx
            · simp at hx
            · split at hx
              · simp at hx
              · simp at hx; subst hx; simp at hdef
          · simp at hdef
    | ident u du =>
      simp only [occsAt, List.mem_append] at hx
      rcases hx with hx | hx
      · have hmem : u ∈ identsOf (fileEventsOf D all e.1 e.2) := by
          rw [events_eq hg] at hes
          rw [hes, identsOf_append]
          exact List.mem_append_right _ (by simp [identsOf])
        unfold defOccs at hx
        split at hx
        · simp at hx
        · split at hx
          · simp at hx; subst hx
            exact fun h => (C02_global_not_local _ _ _).2.2 h.symm
          · split at hx
            · simp at hx
            · rename_i d hd
              have hpos : d.self.pos = u.pos := (ht.files _ _ hp _ hf).declared_at u hmem d hd
              dsimp only at hx
              split at hx
              · rename_i info hi
                simp at hx; subst hx
                rcases (packageTable_of htab).others _ _ hi with ⟨f', fs', hfs, hpos', _⟩ | ⟨ds, hne, hs⟩
                · exfalso
                  exact ht.clauses _ _ hp _ hf f' (by rw [hfs]; simp) u hmem (by rw [← hpos, hpos'])
                · simp only
                  rw [hs]; exact formatSymbol_longer _ _ _ hne
              · simp at hx; subst hx
                exact fun h => (C02_global_not_local _ _ _).2.2 h.symm
      · exfalso
        unfold refOccs at hx
        split at hx
        · simp at hx
        · split at hx
          · simp at hx
          · split at hx
            · simp at hx; subst hx; simp at hdef
            · simp at hx

theorem nodup_files {D : Deps} {project all : GoMap Package} {objs : List Obj} (ht : TypedProject D project all objs) {k : Str} {p : Package}
    (hp : (k, p) ∈ project) : (p.files.map (·.file)).Nodup := by
  have h := ht.files_apart
  obtain ⟨a, b, e⟩ := List.append_of_mem hp
  rw [e] at h
  unfold filesOf at h
  simp only [List.map_append, List.map_cons, List.flatMap_append, List.flatMap_cons, List.nodup_append, List.map_map] at h
  exact h.2.1.1

/-- **C58.** The package symbol is described exactly once among the documents of its package, in that of the first file, by the name
and the documentation of the package (see C57). -/
theorem C58_described_once (D : Deps) (o : Opts) (ord : MapOrders) (w : Writer) (project all : GoMap Package) (objs : List Obj)
    (ht : TypedProject D project all objs) (hv : ValidMapOrders ord) (i : Nat) (e : Package × SourceFile)
    (he : (filesOf (sortedValues project))[i]? = some e) (path : Str) (occs : List Occurrence) (syms : List (SymInfo × List Str))
    (hm : (index D o ord w (.ok (project, all))).messages[i + 1]? = some (.document path occs syms)) :
    (e.1.files.head? = some e.2 → (syms.map (·.1)).filter (·.symbol == packageSymbol e.1) =
      [⟨packageSymbol e.1, .package, e.1.name, findPackageDocs e.1, some (go!"package " ++ e.1.name)⟩]) ∧
    (e.1.files.head? ≠ some e.2 → (syms.map (·.1)).filter (·.symbol == packageSymbol e.1) = []) := by
  obtain ⟨docs, g, g', heap, externals, e', _, hg, _, he', hd⟩ := run_documents D o ord w project all objs ht hv hm
    (List.getElem?_eq_some_iff.1 he).1
  rw [he] at he'
  simp only [Option.some.injEq] at he'
  subst he'
  obtain ⟨h1, hf⟩ := mem_filesOf.1 (List.mem_of_getElem? he)
  have hp := (mem_sortedValues ht.project_keyed).1 h1
  obtain ⟨t, st, _, htab, hvis, hmsg⟩ := hd
  simp only [Message.document.injEq] at hmsg
  obtain ⟨_, _, rfl⟩ := hmsg
  rw [document_symbols, List.filter_append]
  have hT := packageTable_of htab
  have hfo := fun f hf => (ht.fileSet _ _ hp f hf).1
  have hnd := nodup_files ht hp
  have hlocals : ((ord.locals (i + 1) st.locals).map (fun x => localInfo (fileEnv D ord (i + 1) e.1 t) D.objectString x.2)).filter
      (·.symbol == packageSymbol e.1) = [] := by
    rw [List.filter_eq_nil_iff]
    intro y hy h
    obtain ⟨x, hx, rfl⟩ := List.mem_map.1 hy
    have hx' := (hv.locals _ _).subset hx
    rw [hvis.inv.locals] at hx'
    unfold localMap at hx'
    obtain ⟨z, _, rfl⟩ := List.mem_map.1 hx'
    have : localSymbol z.2 = packageSymbol e.1 := by simpa [localInfo] using h
    exact (C02_global_not_local _ _ _).2.2 this.symm
  rw [hlocals, List.append_nil]
  have hmem : ∀ q info, (q, info) ∈ ord.table (i + 1) t → t.get q = some info := by
    intro q info h
    have := (hv.table _ _).subset h
    exact Table.get_of_mem hT.uniq this
  have huniq : ((ord.table (i + 1) t).map (·.1)).Nodup := by
    rw [((hv.table _ t).map _).nodup_iff]; exact hT.uniq
  unfold Table.symbolsForFile
  rw [List.filter_map, List.filter_filter]
  cases hfs : e.1.files with
  | nil => rw [hfs] at hf; simp at hf
  | cons f fs =>
    have hclause := hT.clause f fs hfs
    simp only [List.head?_cons, Option.some.injEq, ne_eq]
    have hself : ∀ x ∈ ord.table (i + 1) t, x.2.symbol = packageSymbol e.1 → x = (f.name.pos, packageInfo e.1 (packageSymbol e.1)) := by
      intro x hx hs
      rcases hT.others x.1 x.2 (hmem _ _ hx) with ⟨f', fs', hfs', hq, hi⟩ | ⟨ds, hne, hs'⟩
      · rw [hfs] at hfs'
        simp only [List.cons.injEq] at hfs'
        rw [← hfs'.1] at hq
        exact Prod.ext hq hi
      · exfalso
        rw [hs'] at hs
        exact formatSymbol_longer _ _ _ hne hs
    constructor
    · intro hfe
      rw [← hfe]
      have hin : (f.name.pos, packageInfo e.1 (packageSymbol e.1)) ∈ ord.table (i + 1) t := by
        refine (hv.table _ _).symm.subset ?_
        exact Table.mem_of_get hclause
      have hfil : (ord.table (i + 1) t).filter (fun x => x.1 == f.name.pos) = [(f.name.pos, packageInfo e.1 (packageSymbol e.1))] := by
        refine filter_unique (·.1) _ (f.name.pos, packageInfo e.1 (packageSymbol e.1)) hin (List.Nodup.of_map _ huniq) ?_
        intro y hy h
        have h' := hmem _ _ hy
        simp only at h
        rw [h, hclause] at h'
        simp only [Option.some.injEq] at h'
        exact Prod.ext h h'.symm
      have hcongr : (ord.table (i + 1) t).filter (fun a => ((fun x : SymInfo => x.symbol == packageSymbol e.1) ∘ Prod.snd) a &&
          D.fileOf a.1 == some f.file) = (ord.table (i + 1) t).filter (fun x => x.1 == f.name.pos) := by
        apply List.filter_congr
        intro x hx
        rw [Bool.eq_iff_iff]
        simp only [Function.comp_apply, Bool.and_eq_true, beq_iff_eq]
        constructor
        · rintro ⟨hs, _⟩
          rw [hself x hx hs]
        · intro h
          have hx2 := hmem _ _ hx
          rw [h, hclause] at hx2
          simp only [Option.some.injEq] at hx2
          refine ⟨by rw [← hx2]; rfl, by rw [h]; exact hfo f (by rw [hfs]; simp)⟩
      rw [hcongr, hfil]
      rfl
    · intro hne
      rw [List.map_eq_nil_iff, List.filter_eq_nil_iff]
      intro x hx h
      simp only [Function.comp_apply, Bool.and_eq_true, beq_iff_eq] at h
      have := hself x hx h.1
      subst this
      have h2 := hfo f (by rw [hfs]; simp)
      rw [h.2] at h2
      simp only [Option.some.injEq] at h2
      rw [hfs] at hnd hf
      simp only [List.map_cons, List.nodup_cons] at hnd
      rcases List.mem_cons.1 hf with rfl | hf
      · exact hne rfl
      · exact hnd.1 (List.mem_map.2 ⟨_, hf, h2⟩)

end Verif
