import Verif.Props.TypesRun
import Verif.Props.EndToEndSample
/-! # The sample project of `IndexSample` meets the hypotheses of C84 -/
namespace Verif.IndexSample
open Verif Spec Index

def declared : List (Ident × List Descriptor × Nat) :=
  [ (⟨1, go!"F", 40⟩, [⟨go!"m/p", .nspace⟩, ⟨go!"F", .method⟩], 40),
    (⟨11, go!"S", 115⟩, [⟨go!"m/p", .nspace⟩, ⟨go!"S", .typ⟩], 115),
    (⟨13, go!"M", 125⟩, [⟨go!"m/p", .nspace⟩, ⟨go!"S", .typ⟩, ⟨go!"M", .method⟩], 125),
    (⟨14, go!"I", 140⟩, [⟨go!"m/p", .nspace⟩, ⟨go!"I", .typ⟩], 140),
    (⟨15, go!"M", 155⟩, [⟨go!"m/p", .nspace⟩, ⟨go!"I", .typ⟩, ⟨go!"M", .term⟩], 155),
    (⟨16, go!"G", 160⟩, [⟨go!"m/p", .nspace⟩, ⟨go!"G", .method⟩], 160) ]

/-- Everything that the sample declares. -/
theorem declares_all (i : Ident) (ds : List Descriptor) (q : Nat) (h : PackageDeclares pkgP.env (pkgP.files.map SourceFile.node) i ds q) :
    (i, ds, q) ∈ declared := by
  obtain ⟨n, decls, hf, hd⟩ := h
  simp only [pkgP, List.map_cons, List.map_nil, List.mem_cons, List.not_mem_nil, or_false, SourceFile.node, Node.file.injEq] at hf
  rcases hf with ⟨rfl, rfl⟩ | ⟨rfl, rfl⟩
  · cases hd with
    | typ hd =>
      obtain ⟨tok, specs, doc, spec, hm, hs, hd⟩ := hd
      simp only [fileA, FileSample.decls, List.mem_cons, Node.genDecl.injEq, reduceCtorEq, List.not_mem_nil, or_false] at hm
      obtain ⟨rfl, rfl, rfl⟩ := hm
      simp only [List.mem_singleton] at hs
      subst hs
      cases hd
    | func hm hd =>
      simp only [fileA, FileSample.decls, List.mem_cons, List.not_mem_nil, or_false] at hm
      rcases hm with rfl | rfl
      · cases hd
      · cases hd with
        | name hr => cases hr; simp [declared, pkgP, envP]
        | result hr hres => cases hres with | result h _ => simp at h
    | var hm ht hd =>
      simp only [fileA, FileSample.decls, List.mem_cons, Node.genDecl.injEq, reduceCtorEq, List.not_mem_nil, or_false] at hm
      obtain ⟨rfl, rfl, rfl⟩ := hm
      simp at ht
  · cases hd with
    | typ hd =>
      obtain ⟨tok, specs, doc, spec, hm, hs, hd⟩ := hd
      simp only [fileB, declsB, List.mem_cons, Node.genDecl.injEq, reduceCtorEq, List.not_mem_nil, or_false, false_or] at hm
      rcases hm with ⟨rfl, rfl, rfl⟩ | ⟨rfl, rfl, rfl⟩ <;> (simp only [List.mem_singleton] at hs; subst hs)
      · cases hd with
        | name => simp [declared, pkgP, envP]
        | member hd =>
          cases hd with
          | named hf _ => cases hf with | struct h => simp at h
          | embedded _ hf _ => cases hf with | struct h => simp at h
          | embeddedLit _ hf _ => cases hf with | struct h => simp at h
          | anon hf => cases hf with | struct h => simp at h
      · cases hd with
        | name => simp [declared, pkgP, envP]
        | member hd =>
          cases hd with
          | named hf hi =>
            cases hf with | iface h => ?_
            simp only [List.mem_singleton, Node.field.injEq] at h
            obtain ⟨_, rfl, _⟩ := h
            simp at hi; subst hi; simp [declared, pkgP, envP, isIfaceBody]
          | embedded h => simp [isIfaceBody] at h
          | embeddedLit _ hf _ => cases hf with | iface h => simp at h
          | anon hf _ hr =>
            cases hf with | iface h => ?_
            simp only [List.mem_singleton, Node.field.injEq] at h
            obtain ⟨_, _, rfl, _⟩ := h
            cases hr
    | func hm hd =>
      simp only [fileB, declsB, List.mem_cons, List.not_mem_nil, or_false] at hm
      rcases hm with rfl | rfl | rfl | rfl
      · cases hd
      · cases hd with
        | name hr => cases hr with | method hr => cases hr; simp [declared, pkgP, envP]
        | result hr hres => cases hres with | result h _ => simp at h
      · cases hd
      · cases hd with
        | name hr => cases hr; simp [declared, pkgP, envP]
        | result hr hres => cases hres with | result h _ => simp at h
    | var hm ht hd =>
      simp only [fileB, declsB, List.mem_cons, Node.genDecl.injEq, reduceCtorEq, List.not_mem_nil, or_false, false_or] at hm
      rcases hm with ⟨rfl, rfl, rfl⟩ | ⟨rfl, rfl, rfl⟩ <;> simp at ht

def defI : Impl.TypeDef := ⟨objI.self, true, some nI⟩
def defS : Impl.TypeDef := ⟨objS.self, true, some nS⟩
def defR : Impl.TypeDef := ⟨objR.self, true, some nR⟩

theorem projectType_iff {p : Package} {d : Impl.TypeDef} {t : Impl.NamedT} (h : ProjectType project p d t) :
    p = pkgP ∧ (d = defI ∧ t = nI ∨ d = defS ∧ t = nS) := by
  obtain ⟨h1, h2, ⟨ds, h3, h4⟩, h5, h6⟩ := h
  simp only [project, List.mem_singleton, Prod.mk.injEq] at h1
  obtain ⟨_, rfl⟩ := h1
  refine ⟨rfl, ?_⟩
  simp only [pkgP, Option.some.injEq] at h3
  subst h3
  simp only [List.mem_cons, Option.some.injEq, reduceCtorEq, List.not_mem_nil, or_false, false_or] at h4
  rcases h4 with rfl | rfl
  · left; simp at h6; exact ⟨rfl, h6.symm⟩
  · right; simp at h6; exact ⟨rfl, h6.symm⟩

theorem dependencyType_iff {p : Package} {d : Impl.TypeDef} {t : Impl.NamedT} (h : DependencyType project all p d t) :
    p = pkgFmt ∧ d = defR ∧ t = nR := by
  obtain ⟨h1, h2, h3, h4, ⟨ds, h5, h6⟩, h7, h8⟩ := h
  simp only [all, List.mem_cons, Prod.mk.injEq, List.not_mem_nil, or_false] at h1
  rcases h1 with ⟨_, rfl⟩ | ⟨_, rfl⟩ | ⟨_, rfl⟩
  · simp only [pkgFmt, Option.some.injEq] at h5
    subst h5
    simp only [List.mem_cons, Option.some.injEq, List.not_mem_nil, or_false] at h6
    subst h6
    simp at h8
    exact ⟨rfl, rfl, h8.symm⟩
  · simp [pkgP] at h4
  · exact absurd rfl h3

theorem method_of {b : Bool} {p : Package} {d : Impl.TypeDef} {t : Impl.NamedT} (h : KnownType project all b p d t) (m : Impl.Method)
    (hm : m ∈ t.methods) : m = mS ∨ m = mI ∨ m = mR := by
  cases b with
  | true =>
    obtain ⟨_, ⟨_, rfl⟩ | ⟨_, rfl⟩⟩ := projectType_iff h
    · simp only [nI, List.mem_singleton] at hm; exact .inr (.inl hm)
    · simp only [nS, List.mem_singleton] at hm; exact .inl hm
  | false =>
    obtain ⟨_, _, rfl⟩ := dependencyType_iff h
    simp only [nR, List.mem_singleton] at hm; exact .inr (.inr hm)

theorem declaredAs_unique {q : Nat} (h : q = 125 ∨ q = 155) {x y : Str} (hx : DeclaredAs pkgP q x) (hy : DeclaredAs pkgP q y) : x = y := by
  have key : ∀ x, DeclaredAs pkgP q x → x = pkgP.env.fromDescriptors
      (if q = 125 then [⟨go!"m/p", .nspace⟩, ⟨go!"S", .typ⟩, ⟨go!"M", .method⟩] else [⟨go!"m/p", .nspace⟩, ⟨go!"I", .typ⟩, ⟨go!"M", .term⟩]) := by
    rintro x (⟨i, ds, hd, rfl⟩ | ⟨f, hf, hp, _⟩)
    · have := declares_all i ds q hd
      simp only [declared, List.mem_cons, Prod.mk.injEq, List.not_mem_nil, or_false] at this
      rcases h with rfl | rfl <;> simp at this <;> simp [this.2]
    · simp only [pkgP, List.head?_cons, Option.some.injEq] at hf
      subst hf
      rcases h with rfl | rfl <;> simp [fileA] at hp
  rw [key x hx, key y hy]

theorem declared_mI : ∃ z, DeclaredAs pkgP mI.obj.self.pos z := by
  have ⟨info, hi⟩ : ∃ info, table.getSymbolInformation go!"m/p" 155 = some info := by
    have h : (table.getSymbolInformation go!"m/p" 155).isSome = true := by decide +kernel
    exact Option.isSome_iff_exists.1 h
  obtain ⟨docs, hvp⟩ := table_of_run
  obtain ⟨p, h1, _, h2⟩ := (symbolInformation_declared (collected_global typed.project_keyed typed.all_keyed typed.sub ord_ok.all hvp)
    typed go!"m/p" 155).1 info hi
  simp only [project, List.mem_singleton, Prod.mk.injEq] at h1
  rw [h1.2] at h2
  exact ⟨_, h2⟩

theorem namedTypes : NamedTypes deps project all where
  fields := by
    intro p hp hb
    simp only [all, List.mem_cons, Prod.mk.injEq, List.not_mem_nil, or_false] at hp
    rcases hp with ⟨_, rfl⟩ | ⟨_, rfl⟩ | ⟨_, rfl⟩
    · exact ⟨by decide +kernel, by decide +kernel⟩
    · exact ⟨by decide +kernel, by decide +kernel⟩
    · exact absurd rfl hb
  checked := by
    intro p hp _
    simp only [project, List.mem_singleton, Prod.mk.injEq] at hp
    obtain ⟨_, rfl⟩ := hp
    exact ⟨rfl, rfl⟩
  declared := by
    intro p d t h
    obtain ⟨rfl, ⟨rfl, rfl⟩ | ⟨rfl, rfl⟩⟩ := projectType_iff h
    · refine ⟨fileB, by simp [pkgP], ⟨14, go!"I", 140⟩, by decide +kernel, rfl, rfl, ⟨_, _, List.mem_map.2 ⟨fileB, by simp [pkgP], rfl⟩,
        .typ ⟨_, _, _, _, List.mem_of_getElem (i := 2) (h := by decide) rfl, List.mem_singleton.2 rfl, .name _ _ _ _⟩⟩, ?_⟩
      intro i ds h
      have := declares_all i ds _ h
      simp [declared] at this
      exact this
    · refine ⟨fileB, by simp [pkgP], ⟨11, go!"S", 115⟩, by decide +kernel, rfl, rfl, ⟨_, _, List.mem_map.2 ⟨fileB, by simp [pkgP], rfl⟩,
        .typ ⟨_, _, _, _, List.mem_of_getElem (i := 0) (h := by decide) rfl, List.mem_singleton.2 rfl, .name _ _ _ _⟩⟩, ?_⟩
      intro i ds h
      have := declares_all i ds _ h
      simp [declared] at this
      exact this
  once := by
    intro p d t d' t' h h' e
    obtain ⟨rfl, ⟨rfl, rfl⟩ | ⟨rfl, rfl⟩⟩ := projectType_iff h <;> obtain ⟨_, ⟨rfl, rfl⟩ | ⟨rfl, rfl⟩⟩ := projectType_iff h' <;>
      first | rfl | simp [defI, defS, objI, objS, Obj.plain] at e
  scope_once := by
    intro p d t d' t' h h' _
    rw [(dependencyType_iff h).2.1, (dependencyType_iff h').2.1]
  scope_types := by
    intro p d t h
    rw [(dependencyType_iff h).2.1]
    exact ⟨_, rfl⟩
  origins := by
    intro b p d t h m hm
    rcases method_of h m hm with rfl | rfl | rfl <;> exact ⟨_, rfl⟩
  named_once := by
    intro b p d t h m hm x y hx hy
    have hP : ∀ {q : Package}, (q.path, q) ∈ project → q = pkgP := by
      intro q hq
      simp only [project, List.mem_singleton, Prod.mk.injEq] at hq
      exact hq.2
    have inP : ∀ {m : Impl.Method}, m.obj.self.pkg = some go!"m/p" → (∃ z, DeclaredAs pkgP m.obj.self.pos z) → ∀ {x},
        NamedBy deps project all m.obj x → DeclaredAs pkgP m.obj.self.pos x := by
      rintro m hpk ⟨z, hz⟩ x ⟨_, _, path, hp, _, hx⟩
      rw [hpk] at hp
      simp only [Option.some.injEq] at hp
      subst hp
      rcases hx with ⟨q, hq, _, hd⟩ | ⟨hno, _⟩
      · rw [hP hq] at hd; exact hd
      · exact absurd ⟨pkgP, by simp [project, pkgP, Package.path, envP], by decide +kernel, hz⟩ (hno z)
    rcases method_of h m hm with rfl | rfl | rfl
    · have hz : ∃ z, DeclaredAs pkgP mS.obj.self.pos z := ⟨_, .inl ⟨⟨13, go!"M", 125⟩, _, ⟨_, _, List.mem_map.2 ⟨fileB, by simp [pkgP], rfl⟩,
        .func (d := declsB[1]) (by simp [fileB, declsB]) (.name (.method (.ident _)))⟩, rfl⟩⟩
      exact declaredAs_unique (.inl rfl) (inP rfl hz hx) (inP rfl hz hy)
    · have hz := declared_mI
      exact declaredAs_unique (.inr rfl) (inP rfl hz hx) (inP rfl hz hy)
    · have key : ∀ x, NamedBy deps project all mR.obj x → x = go!"scip-go gomod std go1 fmt/R#M()." := by
        rintro x ⟨_, _, path, hp, _, hx⟩
        have hp' : path = go!"fmt" := (Option.some.inj hp).symm
        subst hp'
        rcases hx with ⟨q, hq, hv, _⟩ | ⟨_, q, ds, hq, hd, rfl⟩
        · rw [hP hq] at hv
          exact absurd hv (by decide +kernel)
        · have hq' : q = pkgFmt := by
            simp only [all, List.mem_cons, Prod.mk.injEq, List.not_mem_nil, or_false] at hq
            rcases hq with ⟨_, h⟩ | ⟨h, _⟩ | ⟨h, _⟩
            · exact h
            · exact absurd h (by decide)
            · exact absurd h (by decide)
          subst hq'
          cases hd with
          | typ h => exact absurd h (by simp [mR, ImplSample.meth, entityOf, Obj.plain])
          | const h => exact absurd h (by simp [mR, ImplSample.meth, entityOf, Obj.plain])
          | var h => exact absurd h (by simp [mR, ImplSample.meth, entityOf, Obj.plain])
          | func h => exact absurd h (by simp [mR, ImplSample.meth, entityOf, Obj.plain])
          | field h => exact absurd h (by simp [mR, ImplSample.meth, entityOf, Obj.plain])
          | method h hb hne =>
            simp [mR, ImplSample.meth, entityOf, Obj.plain] at h
            subst h
            cases hb
            decide +kernel
      rw [key x hx, key y hy]
  methods := by
    intro p d t h b p' d' t' h' m hm
    obtain ⟨rfl, ⟨rfl, rfl⟩ | ⟨rfl, rfl⟩⟩ := projectType_iff h <;> rcases method_of h' m hm with rfl | rfl | rfl <;> decide

/-- C84: the document of the second file describes `S` with a relationship to `I`, and to nothing else. -/
example (path : Str) (occs : List Occurrence) (syms : List (SymInfo × List Str))
    (hm : run.messages[2]? = some (.document path occs syms)) :
    ∃ s ∈ syms, s.1.symbol = go!"scip-go gomod m v1 `m/p`/S#" ∧ ∀ x, x ∈ s.2 ↔ x = go!"scip-go gomod m v1 `m/p`/I#" := by
  have hS : ProjectType project pkgP defS nS := ⟨by simp [project, pkgP, Package.path, envP], by decide, ⟨_, rfl, by simp [defS]⟩, rfl, rfl⟩
  have hI : ProjectType project pkgP defI nI := ⟨by simp [project, pkgP, Package.path, envP], by decide, ⟨_, rfl, by simp [defI]⟩, rfl, rfl⟩
  obtain ⟨s, h1, h2, _, h3⟩ := C84_types deps opts ord writer project all objs typed ord_ok namedTypes 1 (pkgP, fileB) rfl path occs syms hm
    defS nS hS (by decide)
  refine ⟨s, h1, by rw [h2]; decide +kernel, ?_⟩
  intro x
  rw [h3]
  constructor
  · rintro ⟨_, b', p', d', i, h, rfl⟩
    cases b' with
    | true =>
      obtain ⟨rfl, ⟨rfl, rfl⟩ | ⟨rfl, rfl⟩⟩ := projectType_iff h.interface
      · decide +kernel
      · exact absurd h.isInterface (by decide)
    | false =>
      obtain ⟨rfl, rfl, rfl⟩ := dependencyType_iff h.interface
      exact absurd h.isInterface (by decide)
  · rintro rfl
    exact ⟨rfl, true, pkgP, defI, nI, ⟨.inl rfl, hS, rfl, hI, rfl, by simp [nI], S_implements_I, .inr rfl⟩, by decide +kernel⟩

/-- C84: the run writes an external symbol for `fmt.R`, which implements `I`. -/
example : ∃ rels, .external go!"scip-go gomod std go1 fmt/R#" rels ∈ run.messages ∧ rels = [go!"scip-go gomod m v1 `m/p`/I#"] := by
  have hok : run.outcome = .ok := (C74_never_crashes deps opts ord writer project all objs typed extractor_ok ord_ok).2 (fun _ _ => rfl)
  have hR : DependencyType project all pkgFmt defR nR := ⟨by simp [all, pkgFmt, Package.path], by
    intro q hq; simp [project, pkgFmt, Package.path] at hq, by decide, rfl, ⟨_, rfl, by simp [defR]⟩, by decide +kernel, rfl⟩
  have hI : ProjectType project pkgP defI nI := ⟨by simp [project, pkgP, Package.path, envP], by decide, ⟨_, rfl, by simp [defI]⟩, rfl, rfl⟩
  obtain ⟨h1, h2⟩ := C84_external_symbols deps opts ord writer project all objs typed ord_ok namedTypes hok
  have himp : ImplementsSome deps.ext nR nI := by
    refine .inl ⟨rfl, ?_⟩
    intro m hm
    simp only [nI, List.mem_singleton] at hm
    subst hm
    exact ⟨mR, by simp [nR], .inr rfl, by decide +kernel, Fp.identical_sound _ _ (by decide +kernel)⟩
  obtain ⟨rels, hr⟩ := h1 pkgFmt defR nR pkgP defI nI rfl ⟨.inr rfl, hR, rfl, hI, rfl, by simp [nI], himp, .inl (by
    intro m hm; simp only [nI, List.mem_singleton] at hm; subst hm; decide +kernel)⟩
  refine ⟨rels, by rw [show go!"scip-go gomod std go1 fmt/R#" = typeSymbol pkgFmt defR.obj.name by decide +kernel]; exact hr, ?_⟩
  obtain ⟨_, hne, hs, p, d, t, hT, hsym, hx⟩ := h2 _ _ hr
  have hall : ∀ x ∈ rels, x = go!"scip-go gomod m v1 `m/p`/I#" := by
    intro x hx'
    obtain ⟨p', d', i, h, rfl⟩ := (hx x).1 hx'
    obtain ⟨rfl, ⟨rfl, rfl⟩ | ⟨rfl, rfl⟩⟩ := projectType_iff h.interface
    · decide +kernel
    · exact absurd h.isInterface (by decide)
  match rels, hne, hs, hall with
  | [a], _, _, hall => rw [hall a (by simp)]
  | a :: b :: l, _, hs, hall =>
    have h1 := hall a (by simp)
    have h2 := hall b (by simp)
    rw [h1, h2] at hs
    have := (List.pairwise_cons.1 hs).1 _ (List.mem_cons_self ..)
    rw [Str.lt_irrefl] at this
    simp at this

/-- C35: no external symbol twice. -/
example : (run.messages.filterMap externalSymbol).Nodup := C35_written_once deps opts ord writer project all objs typed ord_ok

/-- C84: the method `S.M`, declared at 125, is related to `I.M`. -/
example (path : Str) (occs : List Occurrence) (syms : List (SymInfo × List Str))
    (hm : run.messages[2]? = some (.document path occs syms)) :
    ∃ s ∈ syms, DeclaredAs pkgP 125 s.1.symbol ∧ go!"scip-go gomod m v1 `m/p`/I#M." ∈ s.2 := by
  have hS : ProjectType project pkgP defS nS := ⟨by simp [project, pkgP, Package.path, envP], by decide, ⟨_, rfl, by simp [defS]⟩, rfl, rfl⟩
  have hI : ProjectType project pkgP defI nI := ⟨by simp [project, pkgP, Package.path, envP], by decide, ⟨_, rfl, by simp [defI]⟩, rfl, rfl⟩
  have hdecl : DeclaredAs pkgP 125 (pkgP.env.fromDescriptors [⟨go!"m/p", .nspace⟩, ⟨go!"S", .typ⟩, ⟨go!"M", .method⟩]) :=
    .inl ⟨⟨13, go!"M", 125⟩, _, ⟨_, _, List.mem_map.2 ⟨fileB, by simp [pkgP], rfl⟩,
      .func (d := declsB[1]) (by simp [fileB, declsB]) (.name (.method (.ident _)))⟩, rfl⟩
  have hin : pkgP.path ∈ variants go!"m/p" := by decide +kernel
  obtain ⟨s, h1, h2, _, h3⟩ := (C84_exact_relationships deps opts ord writer project all objs typed ord_ok namedTypes 1 (pkgP, fileB) rfl
    path occs syms hm).2 125 _ (by decide) hdecl
  refine ⟨s, h1, h2, (h3 _).2 ⟨rfl, .inr ⟨true, true, pkgP, defS, nS, pkgP, defI, nI, ⟨.inl rfl, hS, rfl, hI, rfl, by simp [nI],
    S_implements_I, .inr rfl⟩, mS, by simp [nS], mI, by simp [nI], by decide +kernel, ⟨_, by decide, by decide, go!"m/p", rfl, by decide,
      .inl ⟨pkgP, by simp [project, pkgP, Package.path, envP], hin, hdecl⟩⟩, ?_, rfl, ?_⟩⟩⟩
  · unfold declaringPackage
    show (variants go!"m/p").find? _ = _
    have : ∃ p sym, (go!"m/p", p) ∈ project ∧ DeclaredAs p mS.obj.self.pos sym := ⟨pkgP, _, by simp [project], hdecl⟩
    rw [variants, List.find?_cons_of_pos (by simpa using this)]
    rfl
  · obtain ⟨z, hz⟩ := declared_mI
    have hz' := hz
    rcases hz with ⟨i, ds, hd, rfl⟩ | ⟨f, hf, hp, _⟩
    · have := declares_all i ds _ hd
      simp [declared, mI, ImplSample.meth, Obj.plain] at this
      obtain ⟨_, rfl⟩ := this
      refine ⟨by decide, by decide, go!"m/p", rfl, by decide, .inl ⟨pkgP, by simp [project, pkgP, Package.path, envP], hin, ?_⟩⟩
      have e : pkgP.env.fromDescriptors [⟨go!"m/p", .nspace⟩, ⟨go!"I", .typ⟩, ⟨go!"M", .term⟩] = go!"scip-go gomod m v1 `m/p`/I#M." := by
        decide +kernel
      rw [← e]
      exact hz'
    · simp only [pkgP, List.head?_cons, Option.some.injEq] at hf
      subst hf
      simp [fileA, mI, ImplSample.meth, Obj.plain] at hp

end Verif.IndexSample
