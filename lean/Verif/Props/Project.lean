import Verif.Lemmas.TypedProject
import Verif.Props.Index
import Verif.Props.Visitors
/-! # The documents of a run: C58, C74, and the link to C09-C17 -/
namespace Verif
open Spec Index

/-- Message `m` is the document of file `e.2` of package `e.1`, made when `n` messages were written: the file visitor has visited the
file (so that C09-C17 apply), starting from the occurrence of the file's own package clause. -/
def IsDocumentOf (D : Deps) (o : Opts) (ord : MapOrders) (objs : List Obj) (g : Global) (heap : Impl.Heap) (n : Nat)
    (e : Package × SourceFile) (m : Message) : Prop :=
  ∃ t st, g.symbols.lookup e.1.path = some ⟨some e.1.env.module, t⟩ ∧ tableFor e.1 (packageSymbol e.1) = some t ∧
    Visited (fileEnv D ord n e.1 t) g objs e.2.decls (packageOccurrence e.1 (packageSymbol e.1) e.2) st ∧
    m = .document ((Filepath.rel o.moduleRoot e.2.fileName).getD []) st.occs
      (((toScipDocument (fileEnv D ord n e.1 t) D.objectString ((Filepath.rel o.moduleRoot e.2.fileName).getD []) st (ord.table n t)
        (ord.locals n st.locals) D.fileOf e.2.file).symbols).zip
        (documentRelationships heap e.1.path (ord.table n t) (ord.locals n st.locals) D.fileOf e.2.file))

section
variable {D : Deps} {o : Opts} {ord : MapOrders} {project all : GoMap Package} {objs : List Obj} {g : Global} {heap : Impl.Heap}

/-- One file. -/
theorem visitFile_document (hg : Collected' o project all g) (ht : TypedProject D project all objs) (hv : ValidMapOrders ord)
    {e : Package × SourceFile} (hp : (e.1.path, e.1) ∈ project) (hf : e.2 ∈ e.1.files) {d : Doc}
    (hd : d = ⟨(Filepath.rel o.moduleRoot e.2.fileName).getD [], some (packageOccurrence e.1 (packageSymbol e.1) e.2)⟩)
    (n : Nat) {g' : Global} (ha : Asked D.scopes g objs g') :
    ∃ m g'', visitFile D ord heap n e.1 e.2 d g' = some (m, g'') ∧ Asked D.scopes g objs g'' ∧
      IsDocumentOf D o ord objs g heap n e m := by
  obtain ⟨t, htab, hl⟩ := hg.inProject e.1 hp
  have hpar := parsed_of (ord := ord) hg ht hp hf n t
  have htyp := typed_of hg ht hv hp hf n hl
  have hs := ht.files _ _ hp _ hf
  have hl' : g'.symbols.lookup e.1.path = some ⟨some e.1.env.module, t⟩ := by rw [ha.frame.1]; exact hl
  have hev := events_eq (D := D) (ord := ord) hg n e.1 t e.2
  obtain ⟨st, hst⟩ := C14_no_crash (fileEnv D ord n e.1 t) g objs g' e.2.name e.2.decls
    (packageOccurrence e.1 (packageSymbol e.1) e.2) ha hpar htyp (by rw [hev]; exact hs.apart) (by rw [hev]; exact hs.declared_at)
    (by rw [hev]; exact hs.no_package_value)
  have hvis : Visited (fileEnv D ord n e.1 t) g objs e.2.decls (packageOccurrence e.1 (packageSymbol e.1) e.2) st :=
    ⟨hpar, htyp, e.2.name, g', ha, hst⟩
  subst hd
  refine ⟨_, st.global, ?_, hvis.inv.global, ⟨t, st, hl, htab, hvis, rfl⟩⟩
  unfold visitFile
  rw [hl']
  simp only [Option.getD_some]
  rw [show e.2.node = .file e.2.name e.2.decls from rfl, hst]
  rfl

/-- The documents written by a run, one by one. -/
theorem writeDocuments_documents (hg : Collected' o project all g) (ht : TypedProject D project all objs) (hv : ValidMapOrders ord)
    {docs : Docs} (w : Writer) : ∀ (fs : List (Package × SourceFile)) (g' : Global) (done : List Message),
    (∀ e ∈ fs, (e.1.path, e.1) ∈ project ∧ e.2 ∈ e.1.files ∧
      docs.get e.2.fileName = some ⟨(Filepath.rel o.moduleRoot e.2.fileName).getD [], some (packageOccurrence e.1 (packageSymbol e.1) e.2)⟩) →
    Asked D.scopes g objs g' →
    ∃ ds, (writeDocuments D ord w heap docs fs g' done).messages = done ++ ds ∧
      (writeDocuments D ord w heap docs fs g' done).outcome ≠ .crash ∧
      ((writeDocuments D ord w heap docs fs g' done).outcome = .ok → ds.length = fs.length) ∧
      ∀ i m, ds[i]? = some m → ∃ e, fs[i]? = some e ∧ IsDocumentOf D o ord objs g heap (done.length + i) e m := by
  intro fs
  induction fs with
  | nil => intro g' done _ _; exact ⟨[], by simp [writeDocuments], by simp [writeDocuments], by simp, by simp⟩
  | cons e fs ih =>
    intro g' done he ha
    obtain ⟨hp, hf, hd⟩ := he e (by simp)
    obtain ⟨m, g'', hm, ha', hdoc⟩ := visitFile_document (heap := heap) hg ht hv hp hf rfl done.length ha
    unfold writeDocuments
    rw [hd]
    simp only
    rw [hm]
    simp only
    cases hw : w done m with
    | some err =>
      refine ⟨[m], rfl, by simp, by simp, ?_⟩
      intro i m' hi
      cases i with
      | zero => simp only [List.getElem?_cons_zero, Option.some.injEq] at hi; subst hi; exact ⟨e, rfl, hdoc⟩
      | succ i => simp at hi
    | none =>
      simp only
      obtain ⟨ds, h1, h2, h3, h4⟩ := ih g'' (done ++ [m]) (fun x hx => he x (by simp [hx])) ha'
      refine ⟨m :: ds, by rw [h1]; simp, h2, fun h => by simp [h3 h], ?_⟩
      intro i m' hi
      cases i with
      | zero => simp only [List.getElem?_cons_zero, Option.some.injEq] at hi; subst hi; exact ⟨e, rfl, hdoc⟩
      | succ i =>
        obtain ⟨e', he', hd'⟩ := h4 i m' (by simpa using hi)
        refine ⟨e', by simpa using he', ?_⟩
        have : (done ++ [m]).length + i = done.length + (i + 1) := by simp; omega
        rw [this] at hd'
        exact hd'

theorem docs_of (ht : TypedProject D project all objs) (hv : ValidMapOrders ord) {docs : Docs}
    (h : indexVisitPackages o ord project all = some (docs, g)) : ∀ e ∈ filesOf (sortedValues project),
    (e.1.path, e.1) ∈ project ∧ e.2 ∈ e.1.files ∧
      docs.get e.2.fileName = some ⟨(Filepath.rel o.moduleRoot e.2.fileName).getD [], some (packageOccurrence e.1 (packageSymbol e.1) e.2)⟩ := by
  intro e he
  have hg := collected_global ht.project_keyed ht.all_keyed ht.sub hv.all h
  obtain ⟨h1, h2⟩ := mem_filesOf.1 he
  have hp := (mem_sortedValues ht.project_keyed).1 h1
  refine ⟨hp, h2, ?_⟩
  have hn : ((filesOf (sortedValues project)).map (·.2.fileName)).Nodup := by
    have : ((filesOf (sortedValues project)).map (·.2.fileName)).Perm ((filesOf (project.map (·.2))).map (·.2.fileName)) :=
      ((sortedValues_spec ht.project_keyed).1.flatMap_right _).map _
    rw [this.nodup_iff]; exact ht.apart
  have hdoc := visitPackages_doc (h := h) hn e he
  simp only at hdoc
  rw [hdoc]
  have hsym : (setPkgSymbols (ord.all (all.map (·.2))) (newGlobal o)).getPkgSymbol e.1.path = some (packageSymbol e.1) := by
    have := hg.packages e.1.path
    rw [GoMap.get_of_mem ht.all_keyed.nodup (ht.sub _ _ hp)] at this
    have hf := (visitPackages_frame (h := h)).2.2.1
    simp only at hf
    unfold Global.getPkgSymbol at this ⊢
    rw [hf] at this
    exact this
  rw [hsym]
  rfl

end

/-- A project that the extractor accepts (see C33): the signatures of methods are types of a checked program. -/
def ExtractorOk (D : Deps) (all : GoMap Package) : Prop :=
  Fp.Spec.LexOk D.ext.lex ∧ ∀ k p, (k, p) ∈ all → ∀ t : Impl.TypeDef, (∃ ds, (p.defs = some ds ∨ p.scope = some ds) ∧ some t ∈ ds) →
    ∀ n, t.named = some n → ∀ m ∈ n.methods, Fp.Spec.Valid D.ext.lex m.sig

theorem validSignatures_of {D : Deps} {ord : MapOrders} {project all : GoMap Package} {objs : List Obj}
    (ht : TypedProject D project all objs) (hv : ValidMapOrders ord) (he : ExtractorOk D all) :
    ValidSignatures D.ext ((ord.extractAll (all.map (·.2))).map (Package.impl ord)) := by
  intro n hn m hm
  obtain ⟨q, hq, hn⟩ := List.mem_flatMap.1 hn
  obtain ⟨d, hd, hd'⟩ := List.mem_filterMap.1 hn
  obtain ⟨p, hp, rfl⟩ := (mem_impl_all ht hv).1 hq
  cases d with
  | none => simp at hd'
  | some t =>
    refine he.2 _ p hp t (impl_type hv ?_) n hd' m hm
    rcases List.mem_append.1 hd with hd | hd
    · cases hds : (Package.impl ord p).defs with
      | none => rw [hds] at hd; simp at hd
      | some ds => rw [hds] at hd; exact ⟨ds, .inl rfl, hd⟩
    · cases hds : (Package.impl ord p).scope with
      | none => rw [hds] at hd; simp at hd
      | some ds => rw [hds] at hd; exact ⟨ds, .inr rfl, hd⟩

theorem visitPackages_some {root : Str} : ∀ (ps : List Package) (s : Docs × Global),
    (∀ p ∈ ps, FilesOk (p.files.map SourceFile.node)) → ∃ s', visitPackages root ps s = some s' := by
  intro ps
  induction ps with
  | nil => intro s _; exact ⟨s, rfl⟩
  | cons p ps ih =>
    intro s h
    obtain ⟨t, ht, _⟩ := C21_package_collected p.env (p.files.map SourceFile.node) (h p (by simp)) []
    have : ∃ s', visitPackage root p s = some s' := by
      unfold visitPackage visitSyntaxOf
      rw [ht]
      simp only [Option.map_some]
      split <;> exact ⟨_, rfl⟩
    obtain ⟨s', hs'⟩ := this
    unfold visitPackages
    rw [hs']
    exact ih s' (fun q hq => h q (by simp [hq]))

theorem filesOk_of {D : Deps} {project all : GoMap Package} {objs : List Obj} (ht : TypedProject D project all objs) {p : Package}
    (hp : (p.path, p) ∈ project) : FilesOk (p.files.map SourceFile.node) := by
  intro name decls hm d hd
  obtain ⟨f, hf, e⟩ := List.mem_map.1 hm
  exact (ht.files _ p hp f hf).declarations name decls (by rw [e]; simp) d hd

theorem writeExternals_outcome (w : Writer) : ∀ (ms done : List Message), (writeExternals w ms done).outcome ≠ .crash := by
  intro ms
  induction ms with
  | nil => intro done; simp [writeExternals]
  | cons m ms ih =>
    intro done
    unfold writeExternals
    cases w done m with
    | some e => simp
    | none => exact ih _

/-- **C74.** A loaded program without errors is indexed without a crash, whatever the writer does and in every map order: a run ends
with success, or with the error of the write that failed. -/
theorem C74_never_crashes (D : Deps) (o : Opts) (ord : MapOrders) (w : Writer) (project all : GoMap Package) (objs : List Obj)
    (ht : TypedProject D project all objs) (he : ExtractorOk D all) (hv : ValidMapOrders ord) :
    (index D o ord w (.ok (project, all))).outcome ≠ .crash ∧
    ((∀ a m, w a m = none) → (index D o ord w (.ok (project, all))).outcome = .ok) := by
  have h1 : (index D o ord w (.ok (project, all))).outcome ≠ .crash := by
    rcases index_stages D o ord w (.ok (project, all)) with ⟨e, _, hr⟩ | ⟨hw, ⟨e, _, hr⟩ | ⟨pr, al, hl, ⟨hc, hr⟩ |
      ⟨docs, g, g', heap, externals, hvp, hi, rd, hrd, hr⟩⟩⟩
    · rw [hr]; simp
    · rw [hr]; simp
    · exfalso
      simp only [Except.ok.injEq, Prod.mk.injEq] at hl
      obtain ⟨rfl, rfl⟩ := hl
      rcases hc with hc | ⟨docs, g, hvp, hi⟩
      · obtain ⟨s', hs'⟩ := visitPackages_some (root := o.moduleRoot) (sortedValues project)
          ([], setPkgSymbols (ord.all (all.map (·.2))) (newGlobal o))
          (fun p hp => filesOk_of ht ((mem_sortedValues ht.project_keyed).1 hp))
        unfold indexVisitPackages at hc
        rw [hs'] at hc
        simp at hc
      · have hg := collected_global ht.project_keyed ht.all_keyed ht.sub hv.all hvp
        unfold implementations at hi
        split at hi
        · simp at hi
        · obtain ⟨r, hr'⟩ := C33_never_crashes D.ext he.1 D.scopes g (fun _ => [])
            ((ord.extractProject (project.map (·.2))).map (Package.impl ord))
            ((ord.extractAll (all.map (·.2))).map (Package.impl ord)) ord.impls (consistent_of hg ht hv) (impl_sub ht hv)
            (validSignatures_of ht hv he)
          rw [hr'] at hi
          simp at hi
    · simp only [Except.ok.injEq, Prod.mk.injEq] at hl
      obtain ⟨rfl, rfl⟩ := hl
      have hg := collected_global ht.project_keyed ht.all_keyed ht.sub hv.all hvp
      obtain ⟨ds, _, h2, _, _⟩ := writeDocuments_documents (heap := heap) hg ht hv w _ g'
        [.metadata (metadata D o)] (docs_of ht hv hvp) (implementations_asked hg ht hv hi)
      rw [← hrd] at h2
      rcases hr with ⟨ho, hr⟩ | ⟨ho, hr⟩
      · rw [hr]
        exact writeExternals_outcome w externals _
      · rw [hr]; exact h2
  refine ⟨h1, fun hw => ?_⟩
  cases ho : (index D o ord w (.ok (project, all))).outcome with
  | ok => rfl
  | crash => exact absurd ho h1
  | failed e =>
    rcases (C50_write_failure D o ord w (.ok (project, all))).2.2.1 e ho with ⟨a, m, _, h⟩ | ⟨h, _⟩
    · rw [hw] at h; simp at h
    · simp at h

end Verif
