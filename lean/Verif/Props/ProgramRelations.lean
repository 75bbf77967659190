import Verif.Props.ProgramTypes
import Verif.Props.TypesRun
/-! # C86, and C84 for the whole program: what is indexed, and how it is related, in terms of what the go command delivers -/
namespace Verif
open Spec Index Program Loader Loader.Spec

/-- The maps of a load are those of the specification. -/
theorem Program.LoadOk.maps {d : Delivered} {env : Loader.Env} {o : Cmd.IndexOpts} {order : Nat → Nat → List Nat} {fuel : Nat} {l : Loaded}
    (h : LoadOk d env o order fuel l) (hroot : o.moduleRoot = [] ∨ Absolute o.moduleRoot)
    (hdir : ∀ i, Reachable d.graph i → DirOk (identityOpts o) (d.info i)) : ProgramMaps d env o (projectOf d o l) (allOf d o l) where
  all_once := by rw [allOf_keys h]; exact h.inv.nodup
  project_once := projectOf_nodup h
  chosen := by
    intro k p hp
    obtain ⟨x, hx, rfl⟩ := (mem_allOf h).1 hp
    cases x with
    | builtin =>
      have hk := h.inv.builtinOnly _ hx
      refine .inr ⟨hk, fun i hi hik => ?_, rfl⟩
      obtain ⟨y, hy, hle⟩ := h.represented hi
      rw [hik, hx] at hy
      simp only [Option.some.injEq] at hy
      subst hy
      exact List.length_eq_zero_iff.1 (Nat.le_zero.1 hle)
    | loaded i =>
      have hi := h.inv.reach i (.inl (h.inv.keptMet _ i hx))
      have hik := h.invC.key _ i hx
      obtain ⟨m, hm, hid⟩ := C81_identity h.valid h.once h.load hroot (hdir i hi) hx
      refine .inl ⟨i, ⟨hi, fun j hj hp => h.maximal hx hj (by rw [hp, hik])⟩, hik, m.path, m.version, hid, ?_⟩
      show packageOf d l.st.pkgs i = _
      rw [packageOf_delivered h, hm]
      rfl
  complete := by
    intro i hi
    obtain ⟨x, hx, _⟩ := h.represented hi
    exact ⟨_, (mem_allOf h).2 ⟨x, hx, rfl⟩⟩
  builtin := by
    obtain ⟨x, hx⟩ := (h.known go!"builtin").2 (.inl rfl)
    exact ⟨_, (mem_allOf h).2 ⟨x, hx, rfl⟩⟩
  project := by
    intro k p
    rw [mem_projectOf h, mem_allOf h]
    constructor
    · rintro ⟨x, hx, rfl⟩
      obtain ⟨h1, h2⟩ := (h.project_get k x).1 hx
      exact ⟨⟨x, h2, rfl⟩, h1⟩
    · rintro ⟨⟨x, hx, rfl⟩, hr⟩
      exact ⟨x, (h.project_get k x).2 ⟨hr, hx⟩, rfl⟩

theorem documentPaths_get {ds : List Message} (hd : ∀ m ∈ ds, isDocument m) {n : Nat} {path : Str} {occs : List Occurrence}
    {syms : List (SymInfo × List Str)} (h : ds[n]? = some (.document path occs syms)) : (documentPaths ds)[n]? = some path := by
  induction ds generalizing n with
  | nil => simp at h
  | cons m ds ih =>
    have hm := hd m (List.mem_cons_self ..)
    cases m with
    | metadata => exact hm.elim
    | external => exact hm.elim
    | document p x y =>
      have e : documentPaths (.document p x y :: ds) = p :: documentPaths ds := rfl
      rw [e]
      cases n with
      | zero => simp at h ⊢; exact h.1
      | succ n => exact ih (fun m hm => hd m (List.mem_cons_of_mem _ hm)) (by simpa using h)

/-- A document in the output belongs to a file. -/
theorem document_at (D : Deps) (o : Index.Opts) (ord : MapOrders) (w : Writer) (project all : GoMap Package) {k : Nat} {path : Str}
    {occs : List Occurrence} {syms : List (SymInfo × List Str)}
    (h : (index D o ord w (.ok (project, all))).messages[k]? = some (.document path occs syms)) :
    ∃ n e, k = n + 1 ∧ (filesOf (sortedValues project))[n]? = some e ∧ path = (Filepath.rel o.moduleRoot e.2.fileName).getD [] := by
  have single : ∀ m : Metadata, [Message.metadata m][k]? ≠ some (.document path occs syms) := by
    intro m h
    cases k <;> simp at h
  rcases index_stages D o ord w (.ok (project, all)) with ⟨e, _, hr⟩ | ⟨hw, ⟨e, hl, _⟩ | ⟨pr, al, hl, ⟨_, hr⟩ |
    ⟨docs, g, g', heap, externals, hv, hi, rd, hrd, hr⟩⟩⟩
  · rw [hr] at h; exact absurd h (single _)
  · simp at hl
  · rw [hr] at h; exact absurd h (single _)
  · simp only [Except.ok.injEq, Prod.mk.injEq] at hl
    obtain ⟨rfl, rfl⟩ := hl
    obtain ⟨_, ⟨ds, h2, h3, h4, h5⟩, _⟩ := writeDocuments_spec D ord w heap docs (filesOf (sortedValues project)) g' _ (single_ok hw)
    rw [← hrd] at h2 h5
    have key : ∃ es, (index D o ord w (.ok (project, all))).messages = .metadata (metadata D o) :: (ds ++ es) ∧ ∀ m ∈ es, isExternal m := by
      rcases hr with ⟨ho, hr⟩ | ⟨ho, hr⟩
      · obtain ⟨_, ⟨es, k2, k3, _⟩, _⟩ := writeExternals_spec w externals rd.messages (h5 ho).2
        rw [← hr] at k2
        exact ⟨es, by rw [k2, h2]; simp, fun m hm => externals_of hi m (k3.subset hm)⟩
      · exact ⟨[], by rw [hr, h2]; simp, by simp⟩
    obtain ⟨es, hms, hes⟩ := key
    rw [hms] at h
    cases k with
    | zero => simp at h
    | succ n =>
      rw [List.getElem?_cons_succ] at h
      have hn : n < ds.length := by
        by_contra hn
        rw [List.getElem?_append_right (by omega)] at h
        exact hes _ (List.mem_of_getElem? h)
      rw [List.getElem?_append_left hn] at h
      have hp := documentPaths_get h3 h
      have hpre := h4
      rw [docs_complete hv] at hpre
      obtain ⟨rest, hrest⟩ := hpre
      have : ((filesOf (sortedValues project)).map (fun e => (Filepath.rel o.moduleRoot e.2.fileName).getD []))[n]? = some path := by
        rw [← hrest, List.getElem?_append_left (List.getElem?_eq_some_iff.1 hp).1]
        exact hp
      rw [List.getElem?_map, Option.map_eq_some_iff] at this
      obtain ⟨e, he, rfl⟩ := this
      exact ⟨n, e, rfl, he, rfl⟩

/-- **C86.** A run of the whole program that gets beyond loading is a run of indexing on exactly the packages that the go command
delivers: for every import path one variant with the most files, with its own content and the module that identifies it, those with the
path of a matched package being the project; and these are packages on which the guarantees of the type checker hold that C09-C84 ask for. -/
theorem C86_indexed_as_delivered (D : Deps) (answer : Query → Except Str Delivered) (env : Loader.Env) (order : Nat → Nat → List Nat)
    (fuel : Nat) (ord : MapOrders) (o : Cmd.IndexOpts) (w : Writer) (d : Delivered) (objs : List Obj)
    (hg : GoProgram d answer order o) (ht : TypedProgram d D objs) (hn : NamedProgram d D env o)
    (hroot : o.moduleRoot = [] ∨ Absolute o.moduleRoot) (hdir : ∀ i, Reachable d.graph i → DirOk (identityOpts o) (d.info i))
    (r : Run) (hr : indexing D answer env order fuel ord o w = some r) (hl : r.outcome = .ok ∨ 1 < r.messages.length) :
    ∃ project all, ProgramMaps d env o project all ∧ TypedProject D project all objs ∧ NamedTypes D project all ∧
      r = index D (indexOpts o) ord w (.ok (project, all)) := by
  rcases indexing_cases hg hr with ⟨rfl, _⟩ | ⟨l, hl', rfl⟩
  · obtain ⟨h1, e, h2, _⟩ := failed_load D (indexOpts o) ord w panicText
    rw [h1, h2] at hl
    simp at hl
  · exact ⟨_, _, hl'.maps hroot hdir, hl'.typed ht, hl'.named hn hroot hdir, rfl⟩

namespace Spec

/-- The relationships of the descriptions in a document are right: what is described is local and has no relationships, or it is declared
in the file and has exactly the relationships of its place; everything that is declared in the file is described; and the types declared
at package level are described by their symbols with exactly the interfaces that they implement. -/
structure RelatedDocument (D : Deps) (o : Index.Opts) (project all : GoMap Package) (p : Package) (f : SourceFile)
    (syms : List (SymInfo × List Str)) : Prop where
  real : ∀ s ∈ syms, isLocalSymbol s.1.symbol = true ∧ s.2 = [] ∨
    ∃ q, D.fileOf q = some f.file ∧ DeclaredAs p q s.1.symbol ∧ RelationshipsAt D o project all p q s.2
  complete : ∀ q sym, D.fileOf q = some f.file → DeclaredAs p q sym →
    ∃ s ∈ syms, DeclaredAs p q s.1.symbol ∧ RelationshipsAt D o project all p q s.2
  types : ∀ t n, ProjectType project p t n → D.fileOf t.obj.pos = some f.file →
    ∃ s ∈ syms, s.1.symbol = typeSymbol p t.obj.name ∧ s.2.Pairwise (fun a b => Str.lt a b = true) ∧
      ∀ x, x ∈ s.2 ↔ o.skipImplementations = false ∧
        ∃ b' p' d' i, TypesRelate D.ext project all true b' p t n p' d' i ∧ x = typeSymbol p' d'.obj.name

end Spec

/-- **C84** for the whole program: every document that is written belongs to a file of a delivered project package, is named by its path
below the module root and has exactly the right relationships; a successful run has a document for every such file, and writes external
symbols for exactly the exported dependency types that implement an interface of the project. -/
theorem C84_program (D : Deps) (answer : Query → Except Str Delivered) (env : Loader.Env) (order : Nat → Nat → List Nat)
    (fuel : Nat) (ord : MapOrders) (o : Cmd.IndexOpts) (w : Writer) (d : Delivered) (objs : List Obj)
    (hg : GoProgram d answer order o) (ht : TypedProgram d D objs) (hn : NamedProgram d D env o) (hv : ValidMapOrders ord)
    (hroot : o.moduleRoot = [] ∨ Absolute o.moduleRoot) (hdir : ∀ i, Reachable d.graph i → DirOk (identityOpts o) (d.info i))
    (r : Run) (hr : indexing D answer env order fuel ord o w = some r) (hl : r.outcome = .ok ∨ 1 < r.messages.length) :
    ∃ project all, ProgramMaps d env o project all ∧
      (∀ path occs syms, .document path occs syms ∈ r.messages → ∃ p f, (p.path, p) ∈ project ∧ f ∈ p.files ∧
        path = (Filepath.rel o.moduleRoot f.fileName).getD [] ∧ RelatedDocument D (indexOpts o) project all p f syms) ∧
      (r.outcome = .ok →
        (∀ p f, (p.path, p) ∈ project → f ∈ p.files → ∃ path occs syms, .document path occs syms ∈ r.messages ∧
          path = (Filepath.rel o.moduleRoot f.fileName).getD [] ∧ RelatedDocument D (indexOpts o) project all p f syms) ∧
        (∀ p t n p' t' i, o.skipImplementations = false → TypesRelate D.ext project all false true p t n p' t' i →
          ∃ rels, .external (typeSymbol p t.obj.name) rels ∈ r.messages) ∧
        (∀ sym rels, .external sym rels ∈ r.messages → o.skipImplementations = false ∧ rels ≠ [] ∧
          rels.Pairwise (fun a b => Str.lt a b = true) ∧
          ∃ p t n, DependencyType project all p t n ∧ sym = typeSymbol p t.obj.name ∧
            ∀ x, x ∈ rels ↔ ∃ p' t' i, TypesRelate D.ext project all false true p t n p' t' i ∧ x = typeSymbol p' t'.obj.name)) := by
  obtain ⟨project, all, hm, htp, hnt, rfl⟩ := C86_indexed_as_delivered D answer env order fuel ord o w d objs hg ht hn hroot hdir r hr hl
  have doc : ∀ n e path occs syms, (filesOf (sortedValues project))[n]? = some e →
      (index D (indexOpts o) ord w (.ok (project, all))).messages[n + 1]? = some (.document path occs syms) →
      RelatedDocument D (indexOpts o) project all e.1 e.2 syms := by
    intro n e path occs syms he hmn
    obtain ⟨h1, h2⟩ := C84_exact_relationships D (indexOpts o) ord w project all objs htp hv hnt n e he path occs syms hmn
    exact ⟨h1, h2, fun t nt hT hf => C84_types D (indexOpts o) ord w project all objs htp hv hnt n e he path occs syms hmn t nt hT hf⟩
  have mem : ∀ {n : Nat} {e : Package × SourceFile}, (filesOf (sortedValues project))[n]? = some e → (e.1.path, e.1) ∈ project ∧ e.2 ∈ e.1.files := by
    intro n e he
    obtain ⟨h1, h2⟩ := mem_filesOf.1 (List.mem_of_getElem? he)
    exact ⟨(mem_sortedValues htp.project_keyed).1 h1, h2⟩
  refine ⟨project, all, hm, ?_, ?_⟩
  · intro path occs syms hmem
    obtain ⟨k, hk⟩ := List.mem_iff_getElem?.1 hmem
    obtain ⟨n, e, rfl, he, hp⟩ := document_at D (indexOpts o) ord w project all hk
    exact ⟨e.1, e.2, (mem he).1, (mem he).2, hp, doc n e path occs syms he hk⟩
  · intro hok
    refine ⟨?_, ?_⟩
    · intro p f hp hf
      obtain ⟨pr, al, docs, g, g', heap, ds, ex, hl, hvp, him, hms, hpaths, hlen⟩ := C49_success_is_complete D (indexOpts o) ord w _ hok
      simp only [Except.ok.injEq, Prod.mk.injEq] at hl
      obtain ⟨rfl, rfl⟩ := hl
      obtain ⟨n, hn'⟩ := List.mem_iff_getElem?.1 (mem_filesOf (e := (p, f)).2 ⟨(mem_sortedValues htp.project_keyed).2 hp, hf⟩)
      have hlt : n < ds.length := by rw [hlen]; exact (List.getElem?_eq_some_iff.1 hn').1
      have hd := isDocument_of_paths (by rw [hpaths, List.length_map, hlen]) ds[n] (List.getElem_mem hlt)
      have hmn : (index D (indexOpts o) ord w (.ok (project, all))).messages[n + 1]? = some ds[n] := by
        rw [hms, List.getElem?_cons_succ, List.getElem?_append_left hlt, List.getElem?_eq_getElem hlt]
      cases e : ds[n] with
      | metadata => rw [e] at hd; exact hd.elim
      | external => rw [e] at hd; exact hd.elim
      | document path occs syms =>
        rw [e] at hmn
        obtain ⟨n', e', h1, h2, h3⟩ := document_at D (indexOpts o) ord w project all hmn
        obtain rfl : n = n' := by omega
        rw [hn'] at h2
        simp only [Option.some.injEq] at h2
        subst h2
        exact ⟨path, occs, syms, List.mem_of_getElem? hmn, h3, doc n (p, f) path occs syms hn' hmn⟩
    · exact C84_external_symbols D (indexOpts o) ord w project all objs htp hv hnt hok

end Verif
