import Verif.Lemmas.Project
import Verif.Props.Normalize
/-! # C49-C51, C55, C56: the run of the indexer -/
namespace Verif
open Spec Index

/-- The stages of a run. -/
theorem index_stages (D o ord w loaded) :
    let r := index D o ord w loaded
    let m := Message.metadata (metadata D o)
    (∃ e, w [] m = some e ∧ r = ⟨[m], .failed e⟩) ∨
    (w [] m = none ∧
      ((∃ e, loaded = .error e ∧ r = ⟨[m], .failed e⟩) ∨
       ∃ project all, loaded = .ok (project, all) ∧
        (((indexVisitPackages o ord project all = none ∨
            ∃ docs g, indexVisitPackages o ord project all = some (docs, g) ∧ implementations D o ord project all g = none) ∧
            r = ⟨[m], .crash⟩) ∨
         ∃ docs g g' heap externals, indexVisitPackages o ord project all = some (docs, g) ∧
          implementations D o ord project all g = some (g', heap, externals) ∧
          ∃ rd, rd = writeDocuments D ord w heap docs (filesOf (sortedValues project)) g' [m] ∧
            ((rd.outcome = .ok ∧ r = writeExternals w externals rd.messages) ∨ (rd.outcome ≠ .ok ∧ r = rd))))) := by
  intro r m
  have hr : r = index D o ord w loaded := rfl
  unfold index at hr
  simp only at hr
  cases hw : w [] (.metadata (metadata D o)) with
  | some e => rw [hw] at hr; exact .inl ⟨e, rfl, hr⟩
  | none =>
    rw [hw] at hr
    refine .inr ⟨rfl, ?_⟩
    cases loaded with
    | error e => exact .inl ⟨e, rfl, hr⟩
    | ok pa =>
      obtain ⟨project, all⟩ := pa
      refine .inr ⟨project, all, rfl, ?_⟩
      simp only at hr
      cases hv : indexVisitPackages o ord project all with
      | none => rw [hv] at hr; exact .inl ⟨.inl rfl, hr⟩
      | some dg =>
        obtain ⟨docs, g⟩ := dg
        rw [hv] at hr
        simp only at hr
        cases hi : implementations D o ord project all g with
        | none => rw [hi] at hr; exact .inl ⟨.inr ⟨docs, g, rfl, hi⟩, hr⟩
        | some x =>
          obtain ⟨g', heap, externals⟩ := x
          rw [hi] at hr
          refine .inr ⟨docs, g, g', heap, externals, rfl, hi, _, rfl, ?_⟩
          simp only at hr
          change r = match writeDocuments D ord w heap docs (filesOf (sortedValues project)) g' [m] with
            | ⟨done, .ok⟩ => writeExternals w externals done
            | r => r at hr
          obtain ⟨rd, hrd⟩ : ∃ rd, rd = writeDocuments D ord w heap docs (filesOf (sortedValues project)) g' [m] := ⟨_, rfl⟩
          rw [← hrd] at hr ⊢
          obtain ⟨done, out⟩ := rd
          cases out with
          | ok => exact .inl ⟨rfl, hr⟩
          | failed e => exact .inr ⟨by simp, hr⟩
          | crash => exact .inr ⟨by simp, hr⟩

theorem externals_of {D o ord project all g g' heap externals}
    (h : implementations D o ord project all g = some (g', heap, externals)) : ∀ m ∈ externals, isExternal m := by
  unfold implementations at h
  split at h
  · simp only [Option.some.injEq, Prod.mk.injEq] at h
    rw [← h.2.2]; simp
  · cases hr : Impl.addImplementations D.ext D.scopes g (fun _ => [])
      ((ord.extractProject (project.map (·.2))).map (Package.impl ord))
      ((ord.extractAll (all.map (·.2))).map (Package.impl ord)) ord.impls with
    | none => rw [hr] at h; simp at h
    | some r =>
      rw [hr] at h
      simp only [Option.map_some, Option.some.injEq, Prod.mk.injEq] at h
      rw [← h.2.2]
      intro m hm
      obtain ⟨s, _, rfl⟩ := List.mem_map.1 hm
      trivial

/-- The documents of all files exist after the collecting pass. -/
theorem docs_complete {o ord project all docs g} (h : indexVisitPackages o ord project all = some (docs, g)) :
    (filesOf (sortedValues project)).filterMap (fun e => (docs.get e.2.fileName).map (·.relativePath)) =
      (filesOf (sortedValues project)).map (fun e => (Filepath.rel o.moduleRoot e.2.fileName).getD []) := by
  unfold indexVisitPackages at h
  rw [← List.filterMap_eq_map]
  apply filterMap_congr'
  intro e he
  have := visitPackages_docs h e.2.fileName
  simp only at this
  rw [this, if_pos (List.mem_map.2 ⟨e, he, rfl⟩)]
  rfl

theorem single_ok {w : Writer} {m : Message} (hw : w [] m = none) : ∀ a x b, [m] = a ++ x :: b → w a x = none := by
  intro a x b hb
  have hb' : ([] : List Message) ++ [m] = a ++ x :: b := by simpa using hb
  rcases snoc_split hb' with ⟨rfl, rfl, rfl⟩ | ⟨b', _, hd⟩
  · exact hw
  · simp at hd

/-- **C49.** Whatever the project, the writer and the map orders, the messages handed to the writer are: the metadata, then documents,
then external symbols; external symbols come only after one document for every file of the project. -/
theorem C49_message_order (D : Deps) (o : Opts) (ord : MapOrders) (w : Writer) (loaded : Except Str (GoMap Package × GoMap Package)) :
    ∃ md ds es, (index D o ord w loaded).messages = .metadata md :: (ds ++ es) ∧
      md.toolName = go!"scip-go" ∧ md.toolVersion = D.toolVersion ∧ md.version = 0 ∧ md.textEncoding = 1 ∧ md.arguments = o.arguments ∧
      (o.moduleRoot ≠ [] → md.projectRoot = go!"file://" ++ D.escapePath o.moduleRoot) ∧
      (∀ m ∈ ds, isDocument m) ∧ (∀ m ∈ es, isExternal m) ∧
      (es ≠ [] → ∃ project all, loaded = .ok (project, all) ∧
        documentPaths ds = (filesOf (sortedValues project)).map (fun e => (Filepath.rel o.moduleRoot e.2.fileName).getD [])) := by
  have hroot : o.moduleRoot ≠ [] → (metadata D o).projectRoot = go!"file://" ++ D.escapePath o.moduleRoot := by
    intro h; simp [metadata, projectRoot, h]
  rcases index_stages D o ord w loaded with ⟨e, _, hr⟩ | ⟨hw, ⟨e, _, hr⟩ | ⟨project, all, hl, ⟨_, hr⟩ |
    ⟨docs, g, g', heap, externals, hv, hi, rd, hrd, hr⟩⟩⟩
  · exact ⟨metadata D o, [], [], by rw [hr]; rfl, rfl, rfl, rfl, rfl, rfl, hroot, by simp, by simp, by simp⟩
  · exact ⟨metadata D o, [], [], by rw [hr]; rfl, rfl, rfl, rfl, rfl, rfl, hroot, by simp, by simp, by simp⟩
  · exact ⟨metadata D o, [], [], by rw [hr]; rfl, rfl, rfl, rfl, rfl, rfl, hroot, by simp, by simp, by simp⟩
  · obtain ⟨_, ⟨ds, h2, h3, h4, h5⟩, _⟩ := writeDocuments_spec D ord w heap docs (filesOf (sortedValues project)) g' _ (single_ok hw)
    rw [← hrd] at h2 h5
    rcases hr with ⟨ho, hr⟩ | ⟨ho, hr⟩
    · obtain ⟨e1, e2⟩ := h5 ho
      obtain ⟨_, ⟨es, k2, k3, _⟩, _⟩ := writeExternals_spec w externals rd.messages e2
      rw [← hr] at k2
      refine ⟨metadata D o, ds, es, by rw [k2, h2]; simp, rfl, rfl, rfl, rfl, rfl, hroot, h3,
        fun m hm => externals_of hi m (k3.subset hm), fun _ => ⟨project, all, hl, by rw [e1, docs_complete hv]⟩⟩
    · exact ⟨metadata D o, ds, [], by rw [hr, h2]; simp, rfl, rfl, rfl, rfl, rfl, hroot, h3, by simp, by simp⟩

/-- **C49** (success). A run that reports success has written the metadata, one document for every file of every project package, and
all external symbols that the implementation pass found. -/
theorem C49_success_is_complete (D : Deps) (o : Opts) (ord : MapOrders) (w : Writer)
    (loaded : Except Str (GoMap Package × GoMap Package)) (h : (index D o ord w loaded).outcome = .ok) :
    ∃ project all docs g g' heap ds externals, loaded = .ok (project, all) ∧
      indexVisitPackages o ord project all = some (docs, g) ∧
      implementations D o ord project all g = some (g', heap, externals) ∧
      (index D o ord w loaded).messages = .metadata (metadata D o) :: (ds ++ externals) ∧
      documentPaths ds = (filesOf (sortedValues project)).map (fun e => (Filepath.rel o.moduleRoot e.2.fileName).getD []) ∧
      ds.length = (filesOf (sortedValues project)).length := by
  rcases index_stages D o ord w loaded with ⟨e, _, hr⟩ | ⟨hw, ⟨e, _, hr⟩ | ⟨project, all, hl, ⟨_, hr⟩ |
    ⟨docs, g, g', heap, externals, hv, hi, rd, hrd, hr⟩⟩⟩
  · rw [hr] at h; simp at h
  · rw [hr] at h; simp at h
  · rw [hr] at h; simp at h
  · obtain ⟨_, ⟨ds, h2, h3, h4, h5⟩, _⟩ := writeDocuments_spec D ord w heap docs (filesOf (sortedValues project)) g' _ (single_ok hw)
    rw [← hrd] at h2 h5
    rcases hr with ⟨ho, hr⟩ | ⟨ho, hr⟩
    · obtain ⟨e1, e2⟩ := h5 ho
      obtain ⟨_, ⟨es, k2, k3, k4⟩, _⟩ := writeExternals_spec w externals rd.messages e2
      rw [← hr] at k2 k4
      have hes := k4 h
      subst hes
      have hpaths : documentPaths ds = _ := e1.trans (docs_complete hv)
      refine ⟨project, all, docs, g, g', heap, ds, es, hl, hv, hi, by rw [k2, h2]; simp, hpaths, ?_⟩
      have hlen : (documentPaths ds).length = ds.length := by
        clear e1 k2 h2 h4 h5 hpaths
        unfold documentPaths
        induction ds with
        | nil => rfl
        | cons m ds ih =>
          have hm := h3 m (by simp)
          have := ih (fun x hx => h3 x (by simp [hx]))
          cases m <;> simp_all [isDocument]
      rw [← hlen, hpaths, List.length_map]
    · rw [hr] at h; exact absurd h ho

/-- **C50.** If the writer fails on a message, that message is the last one handed to it and the run reports exactly this error;
conversely a run that reports an error reports the error of its last write or of loading the packages (and then nothing but the
metadata was written). -/
theorem C50_write_failure (D : Deps) (o : Opts) (ord : MapOrders) (w : Writer) (loaded : Except Str (GoMap Package × GoMap Package)) :
    let r := index D o ord w loaded
    (∀ a m b e, Written r a m b → w a m = some e → b = [] ∧ r.outcome = .failed e) ∧
    (∀ a m b, Written r a m b → b ≠ [] → w a m = none) ∧
    (∀ e, r.outcome = .failed e → (∃ a m, Written r a m [] ∧ w a m = some e) ∨ (loaded = .error e ∧ r.messages.length = 1)) ∧
    (r.outcome = .ok → ∀ a m b, Written r a m b → w a m = none) := by
  intro r
  have main : WriterOk w r ∧
      (∀ e, r.outcome = .failed e → (∃ a m, Written r a m [] ∧ w a m = some e) ∨ (loaded = .error e ∧ r.messages.length = 1)) := by
    rcases index_stages D o ord w loaded with ⟨e, hw, hr⟩ | ⟨hw, ⟨e, hl, hr⟩ | ⟨project, all, hl, ⟨_, hr⟩ |
      ⟨docs, g, g', heap, externals, hv, hi, rd, hrd, hr⟩⟩⟩
    · change r = _ at hr
      rw [hr]
      refine ⟨writerOk_failed w [] _ e (by simp) hw, ?_⟩
      rintro e' he
      simp only [Outcome.failed.injEq] at he
      subst he
      exact .inl ⟨[], _, rfl, hw⟩
    · change r = _ at hr
      rw [hr]
      refine ⟨writerOk_of w _ _ (single_ok hw), ?_⟩
      rintro e' he
      simp only [Outcome.failed.injEq] at he
      subst he
      exact .inr ⟨hl, rfl⟩
    · change r = _ at hr
      rw [hr]
      exact ⟨writerOk_of w _ _ (single_ok hw), by simp⟩
    · change (_ ∧ r = _) ∨ (_ ∧ r = _) at hr
      obtain ⟨h1, ⟨ds, h2, h3, h4, h5⟩, h6⟩ := writeDocuments_spec D ord w heap docs (filesOf (sortedValues project)) g' _ (single_ok hw)
      rw [← hrd] at h1 h2 h5 h6
      rcases hr with ⟨ho, hr⟩ | ⟨ho, hr⟩
      · obtain ⟨k1, _, _, k4⟩ := writeExternals_spec w externals rd.messages (h5 ho).2
        rw [hr]
        exact ⟨k1, fun e he => .inl (k4 e he)⟩
      · rw [hr]
        exact ⟨h1, fun e he => .inl (h6 e he)⟩
  refine ⟨fun a m b e => main.1.failing a m b e, fun a m b => main.1.earlier a m b, main.2, ?_⟩
  intro ho a m b hb
  cases hw : w a m with
  | none => rfl
  | some e =>
    have := (main.1.failing a m b e hb hw).2
    rw [ho] at this; simp at this

/-! ### Order of the documents -/

/-- **C51.** A successful run writes exactly one document per source file of every project package, the packages in strictly
increasing order of their paths and the files of a package in their order; no map iteration order has any influence. -/
theorem C51_one_document_per_file (D : Deps) (o : Opts) (ord : MapOrders) (w : Writer) (project all : GoMap Package) (hk : Keyed project)
    (h : (index D o ord w (.ok (project, all))).outcome = .ok) :
    ∃ ps : List Package, ps.Perm (project.map (·.2)) ∧ ps.Pairwise (fun p q => Str.lt p.path q.path = true) ∧
      documentPaths (index D o ord w (.ok (project, all))).messages =
        ps.flatMap (fun p => p.files.map (fun f => (Filepath.rel o.moduleRoot f.fileName).getD [])) := by
  obtain ⟨pr, al, docs, g, g', heap, ds, ex, hl, hv, hi, hm, hp, _⟩ := C49_success_is_complete D o ord w _ h
  simp only [Except.ok.injEq, Prod.mk.injEq] at hl
  obtain ⟨rfl, rfl⟩ := hl
  refine ⟨sortedValues project, (sortedValues_spec hk).1, (sortedValues_spec hk).2, ?_⟩
  have hex : documentPaths ex = [] := by
    unfold documentPaths
    rw [List.filterMap_eq_nil_iff]
    intro m hm
    have := externals_of hi m hm
    cases m <;> simp_all [isExternal]
  have happ : documentPaths (.metadata (metadata D o) :: (ds ++ ex)) = documentPaths ds ++ documentPaths ex := by
    simp [documentPaths]
  rw [hm, happ, hex, hp, List.append_nil]
  simp [filesOf, List.map_flatMap, Function.comp_def]

/-- **C51** (determinism of the order): two successful runs on the same project write documents for the same paths in the same order. -/
theorem C51_order_deterministic (D : Deps) (o : Opts) (ord ord' : MapOrders) (w w' : Writer) (project all : GoMap Package)
    (h : (index D o ord w (.ok (project, all))).outcome = .ok) (h' : (index D o ord' w' (.ok (project, all))).outcome = .ok) :
    documentPaths (index D o ord w (.ok (project, all))).messages = documentPaths (index D o ord' w' (.ok (project, all))).messages := by
  have key : ∀ (ord : MapOrders) (w : Writer), (index D o ord w (.ok (project, all))).outcome = .ok →
      documentPaths (index D o ord w (.ok (project, all))).messages =
        (filesOf (sortedValues project)).map (fun e => (Filepath.rel o.moduleRoot e.2.fileName).getD []) := by
    intro ord w h
    obtain ⟨pr, al, docs, g, g', heap, ds, ex, hl, hv, hi, hm, hp, _⟩ := C49_success_is_complete D o ord w _ h
    simp only [Except.ok.injEq, Prod.mk.injEq] at hl
    obtain ⟨rfl, rfl⟩ := hl
    have hex : documentPaths ex = [] := by
      unfold documentPaths
      rw [List.filterMap_eq_nil_iff]
      intro m hm
      have := externals_of hi m hm
      cases m <;> simp_all [isExternal]
    have happ : documentPaths (.metadata (metadata D o) :: (ds ++ ex)) = documentPaths ds ++ documentPaths ex := by
      simp [documentPaths]
    rw [hm, happ, hex, hp, List.append_nil]
  rw [key ord w h, key ord' w' h']

/-! ### The listing commands -/

theorem visitAllSyntax_docs {root ps docs docs'} (h : listMissing.visitAllSyntax root ps docs = some docs') (k : Str)
    (hk : k ∈ (filesOf ps).map (·.2.fileName) ∨ (docs.get k).isSome) : (docs'.get k).isSome := by
  induction ps generalizing docs with
  | nil =>
    simp only [listMissing.visitAllSyntax, Option.some.injEq] at h
    subst h
    simpa [filesOf] using hk
  | cons p ps ih =>
    unfold listMissing.visitAllSyntax at h
    split at h
    · simp at h
    · rename_i docs₁ t hs
      apply ih h
      unfold visitSyntaxOf at hs
      obtain ⟨t', _, hs⟩ := Option.map_eq_some_iff.1 hs
      simp only [Prod.mk.injEq] at hs
      by_cases h1 : k ∈ (filesOf ps).map (·.2.fileName)
      · exact .inl h1
      · right
        rw [← hs.1, newDocs_get]
        split
        · rfl
        · rename_i h2
          rcases hk with hk | hk
          · have e : (filesOf (p :: ps)).map (·.2.fileName) = p.files.map (·.fileName) ++ (filesOf ps).map (·.2.fileName) := by
              simp [filesOf]
            rw [e, List.mem_append] at hk
            exact absurd hk (fun hk => hk.elim h2 h1)
          · exact hk

/-- **C55.** Listing missing documents reports nothing, in every map order: the collecting pass has made a document for every file of
every project package. -/
theorem C55_nothing_missing (root : Str) (project order order' : List Package) (ho : order.Perm project) (ho' : order'.Perm project)
    (missing : List Str) (h : listMissing root order order' = some missing) : missing = [] := by
  unfold listMissing at h
  split at h
  · simp at h
  · rename_i docs hd
    simp only [Option.some.injEq] at h
    rw [← h, List.filterMap_eq_nil_iff]
    intro e he
    rw [if_pos]
    apply visitAllSyntax_docs hd
    left
    have : e ∈ filesOf order := by
      unfold filesOf at he ⊢
      rw [List.mem_flatMap] at he ⊢
      obtain ⟨p, hp, hf⟩ := he
      exact ⟨p, (ho'.trans ho.symm).subset hp, hf⟩
    exact List.mem_map.2 ⟨e, this, rfl⟩

/-- **C56.** For every result of loading: both listings are strictly sorted (so without duplicates), they list exactly the packages
loaded, every project package is also listed among all packages, and `builtin` is listed there. -/
theorem C56_listing {env : Loader.Env} {opts : Loader.Opts} {g : Loader.Graph} {pkgs : Nat → Loader.PkgSt}
    {order : Nat → Nat → List Nat} {fuel : Nat} {l : Loader.Loaded} (ho : Loader.Spec.ValidOrder g order)
    (h : Loader.loadPackages env opts (some (g, pkgs)) order fuel = some (some l)) (current deps : List Str)
    (hl : getPackages (.ok (l.project, l.st.all)) = .ok (current, deps)) :
    current.Pairwise (fun a b => Str.lt a b = true) ∧ deps.Pairwise (fun a b => Str.lt a b = true) ∧
    (∀ k, k ∈ current ↔ ∃ v, l.project.get k = some v) ∧ (∀ k, k ∈ deps ↔ ∃ v, l.st.all.get k = some v) ∧
    (∀ k ∈ current, k ∈ deps) ∧ go!"builtin" ∈ deps := by
  obtain ⟨h1, h2, h3, h4⟩ := C46_project_packages_are_among_all ho h
  simp only [getPackages, Except.ok.injEq, Prod.mk.injEq] at hl
  obtain ⟨rfl, rfl⟩ := hl
  have hc : ∀ k, k ∈ sortStrs l.project.keys ↔ ∃ v, l.project.get k = some v :=
    fun k => (sortStrs_perm _).mem_iff.trans GoMap.mem_keys
  have hd : ∀ k, k ∈ sortStrs l.st.all.keys ↔ ∃ v, l.st.all.get k = some v :=
    fun k => (sortStrs_perm _).mem_iff.trans GoMap.mem_keys
  refine ⟨sortStrs_strict h3, sortStrs_strict h4, hc, hd, ?_, (hd _).2 h2⟩
  intro k hk
  obtain ⟨v, hv⟩ := (hc k).1 hk
  exact (hd k).2 (h1 k v hv).2

end Verif
