import Verif.Props.EndToEnd
import Verif.Props.IndexSample
/-! # The sample project of `IndexSample` meets the hypotheses of the whole-run theorems -/
namespace Verif.IndexSample
open Verif Spec Index

def identF : Ident := ⟨1, go!"F", 40⟩
/-- The call of `F` in the other file. -/
def useF : Ident := ⟨22, go!"F", 186⟩

theorem declares_F (i : Ident) (ds : List Descriptor) (h : PackageDeclares pkgP.env (pkgP.files.map SourceFile.node) i ds 40) :
    i = identF ∧ ds = [⟨go!"m/p", .nspace⟩, ⟨go!"F", .method⟩] := by
  obtain ⟨n, decls, hf, hd⟩ := h
  simp only [pkgP, List.map_cons, List.map_nil, List.mem_cons, List.not_mem_nil, or_false, SourceFile.node, Node.file.injEq] at hf
  generalize hq : (40 : Nat) = q at hd
  rcases hf with ⟨rfl, rfl⟩ | ⟨rfl, rfl⟩
  · cases hd with
    | typ hd =>
      obtain ⟨tok, specs, doc, spec, hm, hs, hd⟩ := hd
      simp only [fileA, FileSample.decls, List.mem_cons, Node.genDecl.injEq, reduceCtorEq, List.not_mem_nil, or_false] at hm
      obtain ⟨rfl, rfl, rfl⟩ := hm
      simp only [List.mem_singleton] at hs
      subst hs
      cases hd
    | func hm hd =>
      simp only [fileA, FileSample.decls, List.mem_cons, List.not_mem_nil, or_false] at hm
      rcases hm with rfl | rfl
      · cases hd
      · cases hd with
        | name hr => cases hr; exact ⟨rfl, rfl⟩
        | result hr hres => cases hres with | result h _ => simp at h
    | var hm ht hd =>
      simp only [fileA, FileSample.decls, List.mem_cons, Node.genDecl.injEq, reduceCtorEq, List.not_mem_nil, or_false] at hm
      obtain ⟨rfl, rfl, rfl⟩ := hm
      simp at ht
  · exfalso
    cases hd with
    | typ hd =>
      obtain ⟨tok, specs, doc, spec, hm, hs, hd⟩ := hd
      simp only [fileB, declsB, List.mem_cons, Node.genDecl.injEq, reduceCtorEq, List.not_mem_nil, or_false, false_or] at hm
      rcases hm with ⟨rfl, rfl, rfl⟩ | ⟨rfl, rfl, rfl⟩ <;> (simp only [List.mem_singleton] at hs; subst hs)
      · cases hd with
        | name => simp at hq
        | member hd =>
          cases hd with
          | named hf _ => cases hf with | struct h => simp at h
          | embedded _ hf _ => cases hf with | struct h => simp at h
          | embeddedLit _ hf _ => cases hf with | struct h => simp at h
          | anon hf => cases hf with | struct h => simp at h
      · cases hd with
        | name => simp at hq
        | member hd =>
          cases hd with
          | named hf hi =>
            cases hf with | iface h => ?_
            simp only [List.mem_singleton, Node.field.injEq] at h
            obtain ⟨_, rfl, _⟩ := h
            simp at hi; subst hi; simp at hq
          | embedded h => simp [isIfaceBody] at h
          | embeddedLit _ hf _ => cases hf with | iface h => simp at h
          | anon hf _ hr =>
            cases hf with | iface h => ?_
            simp only [List.mem_singleton, Node.field.injEq] at h
            obtain ⟨_, _, rfl, _⟩ := h
            cases hr
    | func hm hd =>
      simp only [fileB, declsB, List.mem_cons, List.not_mem_nil, or_false] at hm
      rcases hm with rfl | rfl | rfl | rfl
      · cases hd
      · cases hd with
        | name hr => simp at hq
        | result hr hres => cases hres with | result h _ => simp at h
      · cases hd
      · cases hd with
        | name hr => simp at hq
        | result hr hres => cases hres with | result h _ => simp at h
    | var hm ht hd =>
      simp only [fileB, declsB, List.mem_cons, Node.genDecl.injEq, reduceCtorEq, List.not_mem_nil, or_false, false_or] at hm
      rcases hm with ⟨rfl, rfl, rfl⟩ | ⟨rfl, rfl, rfl⟩ <;> simp at ht

/-- C15: `F` is declared in the first file and called in the second. -/
example (path₁ path₂ : Str) (occs₁ occs₂ : List Occurrence) (syms₁ syms₂ : List (SymInfo × List Str))
    (hm₁ : run.messages[1]? = some (.document path₁ occs₁ syms₁)) (hm₂ : run.messages[2]? = some (.document path₂ occs₂ syms₂)) :
    let sym := go!"scip-go gomod m v1 `m/p`/F()."
    (∃ x ∈ occs₁, x.isDef = true ∧ x.range = identSpan (sourceEnv deps pkgP) identF ∧ x.symbol = sym) ∧
    (∃ x ∈ occs₂, x.isDef = false ∧ x.range = identSpan (sourceEnv deps pkgP) useF ∧ x.symbol = sym) ∧
    (∃ x ∈ syms₁, x.1.symbol = sym) := by
  intro sym
  have hs : pkgP.env.fromDescriptors [⟨go!"m/p", .nspace⟩, ⟨go!"F", .method⟩] = sym := by decide +kernel
  rw [← hs]
  exact C15_whole_run deps opts ord writer project all objs typed ord_ok 0 1 (pkgP, fileA) (pkgP, fileB) rfl rfl
    path₁ path₂ occs₁ occs₂ syms₁ syms₂ hm₁ hm₂ identF useF (by decide +kernel) (by decide +kernel) (by decide) (by decide)
    (by decide) (by decide) _
    ⟨_, _, List.mem_map.2 ⟨fileA, by simp [pkgP], rfl⟩, .func (d := FileSample.decls[1]) (by simp [fileA, FileSample.decls]) (.name .func)⟩
    (fun i ds h => (declares_F i ds h).2) FileSample.objF FileSample.objF (by decide +kernel) (by decide +kernel) rfl (by decide) (by decide) (by decide)

/-- The messages are documents (so the hypotheses above are met). -/
example : (∃ p os ss, run.messages[1]? = some (.document p os ss)) ∧ (∃ p os ss, run.messages[2]? = some (.document p os ss)) := by
  have h : (run.messages.map (fun m => match m with | .document _ _ _ => true | _ => false)) = [false, true, true, false] := by decide +kernel
  have at_ : ∀ i : Nat, (run.messages.map (fun m => match m with | .document _ _ _ => true | _ => false))[i]? = some true →
      ∃ p os ss, run.messages[i]? = some (.document p os ss) := by
    intro i hi
    rw [List.getElem?_map] at hi
    obtain ⟨m, hm, hb⟩ := Option.map_eq_some_iff.1 hi
    cases m with
    | document p os ss => exact ⟨p, os, ss, hm⟩
    | metadata => simp at hb
    | external => simp at hb
  exact ⟨at_ 1 (by rw [h]; rfl), at_ 2 (by rw [h]; rfl)⟩

/-- C11, C75, C31 apply to the second document, which has local symbols, definitions and relationships (`messages`). -/
example (path : Str) (occs : List Occurrence) (syms : List (SymInfo × List Str))
    (hm : run.messages[2]? = some (.document path occs syms)) :
    (∀ x ∈ occs, isLocalSymbol x.symbol = true → ∃ s, (syms.map (·.1)).filter (·.symbol == x.symbol) = [s]) ∧
    (∀ x ∈ occs, x.isDef = true → x.symbol ≠ packageSymbol pkgP → ∃ s ∈ syms, s.1.symbol = x.symbol) ∧
    ∀ s ∈ syms, s.2.Nodup := by
  refine ⟨fun x hx hl => C11_whole_run deps opts ord writer project all objs typed ord_ok 1 (pkgP, fileB) rfl path occs syms hm x hx hl,
    fun x hx hd hp => C75_definitions_described deps opts ord writer project all objs typed ord_ok 1 (pkgP, fileB) rfl path occs syms hm x hx hd hp,
    ?_⟩
  obtain ⟨g, _, h⟩ := C31_whole_run deps opts ord writer project all objs typed ord_ok 1 (pkgP, fileB) rfl path occs syms hm
  exact fun s hs => (h s hs).2.1

/-- The table of the run. -/
def table : Global := ((indexVisitPackages opts ord project all).map (·.2)).getD ⟨[], [], ⟨[], [], []⟩, []⟩

theorem table_of_run : TableOfRun opts ord project all table := by
  have h : (indexVisitPackages opts ord project all).isSome = true := by decide +kernel
  obtain ⟨⟨docs, g⟩, hs⟩ := Option.isSome_iff_exists.1 h
  exact ⟨docs, by unfold table; rw [hs]; rfl⟩

theorem described_S : Described deps.scopes table true (projectPkgs ord project) nS
    ⟨.entry go!"m/p" 115, go!"scip-go gomod m v1 `m/p`/S#"⟩ go!"m/p" := by
  have h : ((table.symbols.lookup go!"m/p").bind (fun r => (r.table.get 115).map (·.symbol))) = some go!"scip-go gomod m v1 `m/p`/S#" := by
    decide +kernel
  obtain ⟨r, hr, h⟩ := Option.bind_eq_some_iff.1 h
  obtain ⟨i, hi, hs⟩ := Option.map_eq_some_iff.1 h
  have := Described.source (scopes := deps.scopes) (g := table) (project := true) (ps := projectPkgs ord project) (p := Package.impl ord pkgP)
    (ds := [some ⟨objI.self, true, some nI⟩, none, some ⟨objS.self, true, some nS⟩]) (d := ⟨objS.self, true, some nS⟩) (named := nS)
    (r := r) (i := i) (by simp [projectPkgs, project, ord]) (by decide) rfl (by simp) (fun _ => rfl) rfl hr hi
  rw [hs] at this
  exact this

theorem described_I : Described deps.scopes table true (projectPkgs ord project) nI
    ⟨.entry go!"m/p" 140, go!"scip-go gomod m v1 `m/p`/I#"⟩ go!"m/p" := by
  have h : ((table.symbols.lookup go!"m/p").bind (fun r => (r.table.get 140).map (·.symbol))) = some go!"scip-go gomod m v1 `m/p`/I#" := by
    decide +kernel
  obtain ⟨r, hr, h⟩ := Option.bind_eq_some_iff.1 h
  obtain ⟨i, hi, hs⟩ := Option.map_eq_some_iff.1 h
  have := Described.source (scopes := deps.scopes) (g := table) (project := true) (ps := projectPkgs ord project) (p := Package.impl ord pkgP)
    (ds := [some ⟨objI.self, true, some nI⟩, none, some ⟨objS.self, true, some nS⟩]) (d := ⟨objI.self, true, some nI⟩) (named := nI)
    (r := r) (i := i) (by simp [projectPkgs, project, ord]) (by decide) rfl (by simp) (fun _ => rfl) rfl hr hi
  rw [hs] at this
  exact this

theorem S_implements_I : ImplementsSome deps.ext nS nI := by
  refine .inl ⟨rfl, ?_⟩
  intro m hm
  simp only [nI, List.mem_singleton] at hm
  subst hm
  exact ⟨mS, by simp [nS], .inr rfl, by decide +kernel, Fp.identical_sound _ _ (by decide +kernel)⟩

/-- C32: the document of the second file describes `S` with a relationship to `I`. -/
example (path : Str) (occs : List Occurrence) (syms : List (SymInfo × List Str))
    (hm : run.messages[2]? = some (.document path occs syms)) :
    ∃ s ∈ syms, s.1.symbol = go!"scip-go gomod m v1 `m/p`/S#" ∧ go!"scip-go gomod m v1 `m/p`/I#" ∈ s.2 :=
  C32_whole_run_partial deps opts ord writer project all objs typed ord_ok rfl distinctTypes 1 (pkgP, fileB) rfl path occs syms hm table
    table_of_run nS nI 115 _ _ _ _ true described_S rfl (by decide) described_I rfl (by simp [nI]) S_implements_I (.inr rfl)

theorem descriptions_distinct : DescriptionsDistinct deps.scopes table (projectPkgs ord project) (allPkgs ord all) :=
  descriptionsDistinct_of (by decide +kernel) (by decide +kernel)

/-- C35: the external symbols of the run are those of dependency types that implement a project interface. -/
example (sym : Str) (rels : List Str) (h : .external sym rels ∈ run.messages) : ∃ t ref p,
    Described deps.scopes table false (Impl.remotePackages (projectPkgs ord project) (allPkgs ord all)) t ⟨ref, sym⟩ p ∧
    ∀ x, x ∈ rels ↔ ∃ i si qi, Described deps.scopes table true (projectPkgs ord project) i si qi ∧ i.isIface = true ∧ i.methods ≠ [] ∧
      AllExported i ∧ ImplementsSome deps.ext t i ∧ x = si.sym :=
  ((C35_whole_run deps opts ord writer project all objs typed ord_ok distinctTypes table table_of_run descriptions_distinct
    ((C74_never_crashes deps opts ord writer project all objs typed extractor_ok ord_ok).2 (fun _ _ => rfl))).2 rfl).2 sym rels h

end Verif.IndexSample
