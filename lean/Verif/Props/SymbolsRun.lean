import Verif.Props.WholeRun
/-! # C83: every symbol of the output is local or carries the module and the path of a loaded package -/
namespace Verif
open Spec Index

/-- The symbol is made of the module and the import path of a package, and perhaps further descriptors. -/
def Spec.OfPackage (p : Package) (sym : Str) : Prop :=
  ∃ ds, sym = formatSymbol ⟨p.env.module.path, p.env.module.version⟩ (⟨p.path, .nspace⟩ :: ds)

/-- The symbol belongs to a loaded package. -/
def Spec.OfLoaded (all : GoMap Package) (sym : Str) : Prop := ∃ p, (p.path, p) ∈ all ∧ OfPackage p sym

section
variable {D : Deps} {o : Opts} {ord : MapOrders} {w : Writer} {project all : GoMap Package} {objs : List Obj} {g : Global}

theorem ofPackage_table {p : Package} {t : Table} (h : PackageTable p t) {q : Nat} {info : SymInfo} (hq : t.get q = some info) :
    OfPackage p info.symbol := by
  rcases h.others q info hq with ⟨_, _, _, _, rfl⟩ | ⟨ds, _, hs⟩
  · exact ⟨[], rfl⟩
  · exact ⟨ds, hs⟩

/-- What is recorded about a package. -/
theorem record_of (hg : Collected' o project all g) (ht : TypedProject D project all objs) {path : Str} {rec : PkgRecord}
    (hl : g.symbols.lookup path = some rec) : ∃ p, (path, p) ∈ all ∧ p.path = path ∧ rec.module = some p.env.module ∧
      ∀ q info, rec.table.get q = some info → OfPackage p info.symbol := by
  cases hpr : project.get path with
  | none =>
    rw [hg.others path hpr] at hl
    obtain ⟨p, hpa, rfl⟩ := Option.map_eq_some_iff.1 hl
    have := GoMap.mem_of_get hpa
    exact ⟨p, this, ht.all_keyed.path _ _ this, rfl, by simp [Table.get_nil]⟩
  | some p =>
    have hm := GoMap.mem_of_get hpr
    have hpath := ht.project_keyed.path _ _ hm
    subst hpath
    obtain ⟨t, htab, hl'⟩ := hg.inProject p hm
    rw [hl'] at hl
    simp only [Option.some.injEq] at hl
    subst hl
    exact ⟨p, ht.sub _ _ hm, rfl, rfl, fun q info hq => ofPackage_table (packageTable_of htab) hq⟩

theorem describe_head {scopes : Scopes} {pkg : Str} {x : ObjData} (hp : ∀ q, x.cls ≠ .pkgName q) (hne : describe scopes pkg x ≠ []) :
    ∃ ds, describe scopes pkg x = ⟨pkg, .nspace⟩ :: ds := by
  have h := (describe_iff scopes pkg x hp _).1 ⟨rfl, hne⟩
  generalize describe scopes pkg x = e at h
  cases h <;> exact ⟨_, rfl⟩

theorem compose_ofPackage (hg : Collected' o project all g) {p : Package} {r : Obj} (hp : r.self.pkg = some p.path)
    (horig : ∀ q, (entityOf r).cls ≠ .pkgName q)
    (hne : (g.composer.compose D.scopes (some (some p.env.module)) (some r)).2 ≠ []) :
    OfPackage p (g.composer.compose D.scopes (some (some p.env.module)) (some r)).2 := by
  have hcanon : r.canon = entityOf r := by unfold Obj.canon entityOf; split <;> simp_all
  rw [hg.composer] at hne ⊢
  simp only [Composer.compose, hp, hcanon, newComposer, List.lookup_nil] at hne ⊢
  split at hne
  · simp at hne
  · rename_i hd
    rw [if_neg hd]
    obtain ⟨ds, e⟩ := describe_head horig hd
    exact ⟨ds, by rw [e]; rfl⟩

/-- The answers of the symbol table of a run. -/
theorem answer_ofLoaded (hg : Collected' o project all g) (ht : TypedProject D project all objs) {r : Obj}
    (horig : ∀ q, (entityOf r).cls ≠ .pkgName q) {info : SymInfo}
    (h : (g.getSymbolOfObject D.scopes r).2 = .info info) : OfLoaded all info.symbol := by
  unfold Global.getSymbolOfObject at h
  dsimp only at h
  split at h
  · simp at h
  · split at h <;> try (simp at h; done)
    split at h
    · split at h <;> try (simp at h; done)
      split at h <;> simp at h
    · rename_i path hp
      split at h
      · simp at h
      · split at h
        · rename_i i hi
          simp only [Found.info.injEq] at h; subst h
          obtain ⟨c, _, hc⟩ := List.exists_of_findSome?_eq_some hi
          unfold Global.getSymbolInformation at hc
          obtain ⟨r', hr', ht'⟩ := Option.bind_eq_some_iff.1 hc
          obtain ⟨p, h1, h2, _, h3⟩ := record_of hg ht hr'
          exact ⟨p, by rw [h2]; exact h1, h3 _ _ ht'⟩
        · split at h
          · rename_i rec hrec
            obtain ⟨p, h1, h2, h3, _⟩ := record_of hg ht hrec
            split at h
            · simp at h
            · simp only [Found.info.injEq] at h; subst h
              rename_i hne
              subst h2
              rw [h3] at hne
              exact ⟨p, h1, by
                show OfPackage p (g.composer.compose D.scopes (some rec.module) (some r)).2
                rw [h3]
                exact compose_ofPackage hg hp horig hne⟩
          · simp at h

theorem pkgSymbol_ofLoaded (hg : Collected' o project all g) (ht : TypedProject D project all objs) {k s : Str}
    (h : g.getPkgSymbol k = some s) : OfLoaded all s := by
  rw [hg.packages] at h
  obtain ⟨p, hp, rfl⟩ := Option.map_eq_some_iff.1 h
  have := GoMap.mem_of_get hp
  have e := ht.all_keyed.path _ _ this
  subst e
  exact ⟨p, this, [], rfl⟩

theorem mem_side (ht : TypedProject D project all objs) (hv : ValidMapOrders ord) {b : Bool} {q : Impl.Pkg}
    (h : q ∈ side (projectPkgs ord project) (allPkgs ord all) b) : ∃ p, (p.path, p) ∈ all ∧ q = Package.impl ord p := by
  cases b with
  | true => exact (mem_impl_all ht hv).1 (impl_sub ht hv q h)
  | false => exact (mem_impl_all ht hv).1 (List.mem_filter.1 h).1

/-- The types that the index describes. -/
theorem described_ofLoaded (hg : Collected' o project all g) (ht : TypedProject D project all objs) (hv : ValidMapOrders ord)
    (horig : ∀ r ∈ objs, ∀ q, (entityOf r).cls ≠ .pkgName q) {b : Bool} {t : Impl.NamedT} {s : Impl.SymRef} {path : Str}
    (h : Described D.scopes g b (side (projectPkgs ord project) (allPkgs ord all) b) t s path) :
    OfLoaded all s.sym ∧ ∀ m ∈ t.methods, m.obj ∈ objs := by
  cases h with
  | source h1 h2 h3 h4 h5 h6 h7 h8 =>
    obtain ⟨p, hp, rfl⟩ := mem_side ht hv h1
    obtain ⟨p', hp', e, _, h9⟩ := record_of hg ht h7
    refine ⟨⟨p', by rw [e]; exact hp', h9 _ _ h8⟩, ?_⟩
    obtain ⟨ds', hds, hm⟩ := impl_defs hv h3 h4
    exact fun m hmm => ((ht.asked _ _ hp _ ⟨ds', .inl hds, hm⟩ _ h6).1 m hmm).1
  | exported h1 h2 h3 h4 h5 h6 h7 h8 h9 =>
    obtain ⟨p, hp, rfl⟩ := mem_side ht hv h1
    obtain ⟨h10, h11⟩ := ht.scope _ _ hp _ h4 _ h5
    subst h8
    refine ⟨⟨p, hp, compose_ofPackage hg h10 (horig _ h11) h9⟩, ?_⟩
    exact fun m hmm => ((ht.asked _ _ hp _ ⟨_, .inr h4, h5⟩ _ h7).1 m hmm).1

/-- Relationships name symbols of loaded packages, and so do external symbols. -/
theorem implementations_ofLoaded (hg : Collected' o project all g) (ht : TypedProject D project all objs) (hv : ValidMapOrders ord)
    (horig : ∀ r ∈ objs, ∀ q, (entityOf r).cls ≠ .pkgName q) {g' : Global} {heap : Impl.Heap} {externals : List Message}
    (him : implementations D o ord project all g = some (g', heap, externals)) :
    (∀ ref, ∀ x ∈ heap ref, OfLoaded all x) ∧
    ∀ m ∈ externals, ∃ sym rels, m = .external sym rels ∧ OfLoaded all sym ∧ ∀ x ∈ rels, OfLoaded all x := by
  cases hs : o.skipImplementations with
  | true =>
    obtain ⟨rfl, rfl⟩ := implementations_skip hs him
    simp
  | false =>
    obtain ⟨r, hr, rfl, rfl⟩ := implementations_run hs him
    have hcons := consistent_of hg ht hv
    have hsub := impl_sub ht hv
    have hheap : ∀ ref, ∀ x ∈ r.heap ref, OfLoaded all x := by
      intro ref x hx
      rcases C31_added_relationships_are_real hcons hsub hv.impls hr _ x hx with h | ⟨b, b', _, t, st, pt, i, si, qi, hD, _, hD', _, _, _, _, h⟩
      · simp at h
      · have h1 := described_ofLoaded hg ht hv horig hD'
        rcases h with ⟨_, rfl⟩ | ⟨n, hn, m, hm, _, sn, sm, _, ⟨info, ha, hsym, _⟩, _, rfl⟩
        · exact h1.1
        · rw [hsym]
          exact answer_ofLoaded hg ht (horig _ (h1.2 m hm)) ha
    refine ⟨hheap, ?_⟩
    intro m hm
    obtain ⟨s, hs, rfl⟩ := List.mem_map.1 hm
    refine ⟨_, _, rfl, ?_, hheap _⟩
    obtain ⟨loc, rem, _, _, hR, _, _, _, _, _, _, hext⟩ := run_spec hcons hsub hv.impls hr
    obtain ⟨e, he, rfl⟩ := List.mem_map.1 (hext.subset hs)
    obtain ⟨t, sy, p, hD, _, _, _, hI⟩ := hR.concretes e (List.mem_filter.1 he).1
    rw [hI.symbol]
    exact (described_ofLoaded (b := false) hg ht hv horig hD).1

/-- Every message of a run is the metadata, the document of a file or an external symbol. -/
theorem run_messages (ht : TypedProject D project all objs) (hv : ValidMapOrders ord) {m : Message}
    (hm : m ∈ (index D o ord w (.ok (project, all))).messages) :
    m = .metadata (metadata D o) ∨ ∃ docs g g' heap externals, indexVisitPackages o ord project all = some (docs, g) ∧
      Collected' o project all g ∧ implementations D o ord project all g = some (g', heap, externals) ∧
      ((∃ (i : Nat) (e : Package × SourceFile), (filesOf (sortedValues project))[i]? = some e ∧
        IsDocumentOf D o ord objs g heap (i + 1) e m) ∨ m ∈ externals) := by
  rcases index_stages D o ord w (.ok (project, all)) with ⟨e, _, hr⟩ | ⟨hw, ⟨e, hl, _⟩ | ⟨pr, al, hl, ⟨hc, hr⟩ |
    ⟨docs, g, g', heap, externals, hvp, him, rd, hrd, hr⟩⟩⟩
  · rw [hr] at hm; left; simpa using hm
  · simp at hl
  · rw [hr] at hm; left; simpa using hm
  · simp only [Except.ok.injEq, Prod.mk.injEq] at hl
    obtain ⟨rfl, rfl⟩ := hl
    have hg := collected_global ht.project_keyed ht.all_keyed ht.sub hv.all hvp
    obtain ⟨ds, h1, _, h3, h4⟩ := writeDocuments_documents (heap := heap) hg ht hv w _ g'
      [.metadata (metadata D o)] (docs_of ht hv hvp) (implementations_asked hg ht hv him)
    rw [← hrd] at h1 h3
    have key : m ∈ rd.messages ∨ m ∈ externals := by
      rcases hr with ⟨ho, hr⟩ | ⟨ho, hr⟩
      · obtain ⟨_, ⟨_, _, _, _, h5⟩, _⟩ := writeDocuments_spec D ord w heap docs (filesOf (sortedValues project)) g' _ (single_ok hw)
        rw [← hrd] at h5
        obtain ⟨_, ⟨es, k2, k3, _⟩, _⟩ := writeExternals_spec w externals rd.messages (h5 ho).2
        rw [hr, k2] at hm
        rcases List.mem_append.1 hm with h | h
        · exact .inl h
        · exact .inr (k3.subset h)
      · rw [hr] at hm; exact .inl hm
    rcases key with h | h
    · rw [h1] at h
      rcases List.mem_cons.1 h with h | h
      · exact .inl h
      · obtain ⟨i, hi⟩ := List.mem_iff_getElem?.1 h
        obtain ⟨e, he, hd⟩ := h4 i m hi
        exact .inr ⟨docs, g, g', heap, externals, hvp, hg, him, .inl ⟨i, e, he, by simpa [Nat.add_comm] using hd⟩⟩
    · exact .inr ⟨docs, g, g', heap, externals, hvp, hg, him, .inr h⟩

theorem occurrence_ofLoaded (hg : Collected' o project all g) (ht : TypedProject D project all objs)
    (horig : ∀ r ∈ objs, ∀ q, (entityOf r).cls ≠ .pkgName q) {heap : Impl.Heap} {n : Nat} {e : Package × SourceFile}
    (he : e ∈ filesOf (sortedValues project)) {path : Str} {occs : List Occurrence} {syms : List (SymInfo × List Str)}
    (hd : IsDocumentOf D o ord objs g heap n e (.document path occs syms)) {x : Occurrence} (hx : x ∈ occs) :
    (∃ k, x.symbol = localName k) ∨ OfLoaded all x.symbol := by
  obtain ⟨t, st, hlk, htab, hvis, hmsg⟩ := hd
  simp only [Message.document.injEq] at hmsg
  obtain ⟨_, rfl, _⟩ := hmsg
  obtain ⟨hp, hf, _⟩ := mem_project_files ht he
  have hown : ∀ q info, t.get q = some info → OfLoaded all info.symbol :=
    fun q info hq => ⟨e.1, ht.sub _ _ hp, ofPackage_table (packageTable_of htab) hq⟩
  rw [hvis.occs] at hx
  rcases List.mem_cons.1 hx with rfl | hx
  · exact .inr ⟨e.1, ht.sub _ _ hp, [], rfl⟩
  · obtain ⟨a, ev, b, hes, hx⟩ := mem_occsFrom _ _ _ hx
    rw [events_eq hg] at hes
    cases ev with
    | qualifier j x' imported =>
      simp only [occsAt] at hx
      split at hx
      · rename_i s hs
        simp at hx; subst hx
        exact .inr (pkgSymbol_ofLoaded hg ht hs)
      · simp at hx
    | imp uid name pp =>
      simp only [occsAt, importOccs] at hx
      split at hx
      · simp at hx
      · split at hx
        · simp at hx
        · rename_i s hs
          simp only [List.mem_append] at hx
          rcases hx with hx | hx
          · split at hx
            · simp at hx
            · split at hx
              · simp at hx
              · simp at hx; subst hx; exact .inr (pkgSymbol_ofLoaded hg ht hs)
          · simp at hx; subst hx; exact .inr (pkgSymbol_ofLoaded hg ht hs)
    | ident j decl =>
      have hj : j ∈ identsOf (fileEventsOf D all e.1 e.2) := mem_identsOf.2 ⟨decl, by rw [hes]; simp⟩
      simp only [occsAt, List.mem_append] at hx
      rcases hx with hx | hx
      · unfold defOccs at hx
        split at hx
        · simp at hx
        · split at hx
          · simp at hx; subst hx
            exact .inl ⟨_, rfl⟩
          · split at hx
            · simp at hx
            · simp only at hx
              split at hx
              · rename_i info hinfo
                simp at hx; subst hx
                exact .inr (hown _ _ hinfo)
              · simp at hx; subst hx
                exact .inl ⟨_, rfl⟩
      · unfold refOccs at hx
        split at hx
        · simp at hx
        · split at hx
          · simp at hx
          · rename_i r hr
            split at hx
            · rename_i s dep htg
              simp at hx; subst hx
              unfold target at htg
              split at htg
              · rename_i s' hs'
                simp at htg
                obtain ⟨rfl, _⟩ := htg
                unfold localSymbolAt at hs'
                obtain ⟨k, _, hk⟩ := Option.map_eq_some_iff.1 hs'
                exact .inl ⟨k, hk.symm⟩
              · split at htg
                · rename_i info hinfo
                  simp at htg
                  obtain ⟨rfl, _⟩ := htg
                  exact .inr (answer_ofLoaded hg ht (horig r ((ht.files _ _ hp _ hf).looked_up j hj r hr)) hinfo)
                · simp at htg
            · simp at hx

end

/-- **C83** (whole run). Every symbol of the output belongs to the loaded program: the symbol of an occurrence or of a description in a
document is `local` with a number, or it is made of the module and the import path of a loaded package (and further descriptors); the
symbols that relationships name, and external symbols, are always of the second kind. -/
theorem C83_symbols_of_run (D : Deps) (o : Opts) (ord : MapOrders) (w : Writer) (project all : GoMap Package) (objs : List Obj)
    (ht : TypedProject D project all objs) (hv : ValidMapOrders ord) (horig : ∀ r ∈ objs, ∀ q, (entityOf r).cls ≠ .pkgName q)
    (m : Message) (hm : m ∈ (index D o ord w (.ok (project, all))).messages) :
    match m with
    | .metadata _ => True
    | .document _ occs syms => (∀ x ∈ occs, (∃ k, x.symbol = localName k) ∨ OfLoaded all x.symbol) ∧
        ∀ s ∈ syms, ((∃ k, s.1.symbol = localName k) ∨ OfLoaded all s.1.symbol) ∧ ∀ x ∈ s.2, OfLoaded all x
    | .external sym rels => OfLoaded all sym ∧ ∀ x ∈ rels, OfLoaded all x := by
  rcases run_messages ht hv hm with rfl | ⟨docs, g, g', heap, externals, hvp, hg, him, ⟨i, e, he, hd⟩ | hx⟩
  · trivial
  · obtain ⟨h1, _⟩ := implementations_ofLoaded hg ht hv horig him
    have he' := List.mem_of_getElem? he
    cases m with
    | metadata => trivial
    | external => obtain ⟨_, _, _, _, _, h⟩ := hd; simp at h
    | document path occs syms =>
      refine ⟨fun x hx => occurrence_ofLoaded hg ht horig he' hd hx, ?_⟩
      obtain ⟨t, st, hlk, htab, hvis, hmsg⟩ := hd
      simp only [Message.document.injEq] at hmsg
      obtain ⟨_, _, rfl⟩ := hmsg
      obtain ⟨hp, hf, _⟩ := mem_project_files ht he'
      rw [document_pairs]
      have hT := packageTable_of htab
      intro s hs
      rcases List.mem_append.1 hs with hs | hs
      · obtain ⟨⟨q, info⟩, hq, rfl⟩ := List.mem_map.1 hs
        have hget := Table.get_of_mem hT.uniq ((hv.table _ _).subset (List.mem_filter.1 hq).1)
        exact ⟨.inr ⟨e.1, ht.sub _ _ hp, ofPackage_table hT hget⟩, h1 _⟩
      · obtain ⟨l, hl, rfl⟩ := List.mem_map.1 hs
        refine ⟨.inl ?_, by simp⟩
        have := (hv.locals _ _).subset hl
        rw [hvis.inv.locals] at this
        unfold localMap at this
        obtain ⟨z, _, rfl⟩ := List.mem_map.1 this
        exact ⟨z.2, rfl⟩
  · obtain ⟨_, h2⟩ := implementations_ofLoaded hg ht hv horig him
    obtain ⟨sym, rels, rfl, h3, h4⟩ := h2 m hx
    exact ⟨h3, h4⟩

end Verif
