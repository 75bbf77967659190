import Verif.Lemmas.Places
import Verif.Props.ContentDetermined
/-!
# C99: no declaration displaces another

The table of a package is indexed by positions, so it matters that two declarations never share one.  Here this is derived from what the parser guarantees
(`DistinctPlaces`, `ValueSpecs` in Spec/Places.lean), which removes the hypotheses about unique declarations from C15, C18, C19 and C87.
-/
namespace Verif
open Spec Index

variable {D : Deps} {o : Opts} {project all : GoMap Package} {objs : List Obj}

theorem distinct_package (h : DistinctPlaces project) {p : Package} (hp : (p.path, p) ∈ project) : (placesList (p.files.map SourceFile.node)).Nodup := by
  rw [DistinctPlaces, List.nodup_flatMap] at h
  exact h.1 _ hp

theorem valueSpecs_files {p : Package} (h : ∀ f ∈ p.files, ValueSpecs f.decls) (name : Ident) (decls : List Node)
    (hf : .file name decls ∈ p.files.map SourceFile.node) : ValueSpecs decls := by
  obtain ⟨f, hm, e⟩ := List.mem_map.1 hf
  simp only [SourceFile.node, Node.file.injEq] at e
  obtain ⟨_, rfl⟩ := e
  exact h f hm

/-- **C99**: at one position of a package at most one entity is declared: two declarations recorded at the same position are the same identifier under the
same path. -/
theorem C99_one_entity (hp : ParsedProject project) (p : Package) (hm : (p.path, p) ∈ project) (q : Nat) (i i' : Ident) (ds ds' : List Descriptor)
    (h : PackageDeclares p.env (p.files.map SourceFile.node) i ds q) (h' : PackageDeclares p.env (p.files.map SourceFile.node) i' ds' q) :
    i = i' ∧ ds = ds' :=
  PackageDeclares.unique (distinct_package hp.places hm) (valueSpecs_files (hp.specs p hm)) h h'

/-- **C99**: nor do two packages, or a declaration and the package clause, share a position. -/
theorem C99_apart (hp : ParsedProject project) (p p' : Package) (hm : (p.path, p) ∈ project) (hm' : (p'.path, p') ∈ project) (q : Nat) (sym sym' : Str)
    (h : DeclaredAs p q sym) (h' : DeclaredAs p' q sym') : p = p' ∧ sym = sym' := by
  have hpp : p = p' := by
    have hd := hp.places
    rw [DistinctPlaces, List.nodup_flatMap] at hd
    by_contra hne
    have hne' : (p.path, p) ≠ (p'.path, p') := fun e => hne (by simpa using (Prod.ext_iff.1 e).2)
    obtain ⟨a, ha, ea⟩ := List.mem_iff_getElem.1 hm
    obtain ⟨b, hb, eb⟩ := List.mem_iff_getElem.1 hm'
    have key := List.pairwise_iff_getElem.1 hd.2
    have hpl := DeclaredAs.place h
    have hpl' := DeclaredAs.place h'
    rcases Nat.lt_trichotomy a b with hab | rfl | hab
    · have := key a b ha hb hab
      rw [ea, eb] at this
      exact this hpl hpl'
    · exact hne' (ea.symm.trans eb)
    · have := key b a hb ha hab
      rw [ea, eb] at this
      exact this hpl' hpl
  subst hpp
  refine ⟨rfl, ?_⟩
  have hn := distinct_package hp.places hm
  have clause : ∀ {f : SourceFile}, p.files.head? = some f → .file f.name f.decls ∈ p.files.map SourceFile.node :=
    fun {f} h => List.mem_map.2 ⟨f, List.mem_of_head? h, rfl⟩
  rcases h with ⟨i, ds, h, rfl⟩ | ⟨f, hf, rfl, rfl⟩ <;> rcases h' with ⟨i', ds', h', rfl⟩ | ⟨f', hf', e, rfl⟩
  · rw [(C99_one_entity hp p hm q i i' ds ds' h h').2]
  · subst e
    exact absurd h (PackageDeclares.not_clause hn (clause hf'))
  · exact absurd h' (PackageDeclares.not_clause hn (clause hf))
  · rfl

/-- **C99**: after the declarations of a package have been collected, what is recorded at the position of each entity is its own symbol. -/
theorem C99_own_symbol (env : PkgEnv) (files : List Node) (hplaces : (placesList files).Nodup)
    (hspecs : ∀ name decls, .file name decls ∈ files → ValueSpecs decls) (hok : FilesOk files) :
    ∃ t, visitPackageSyntax env files [] = some t ∧ ∀ i ds q, PackageDeclares env files i ds q → t.getSymbol q = some (env.fromDescriptors ds) := by
  obtain ⟨t, ht, hc⟩ := (visitPackageSyntax_regs (Q := fun _ _ => True) env files hok fun _ _ _ d _ => DeclQ_true d).collected []
  exact ⟨t, ht, fun i ds q h => hc.exact i ds q h fun i' ds' h' => (PackageDeclares.unique hplaces hspecs h' h).2⟩

/-- **C99**: what has been recorded while some of the files were visited is not changed by the visits of the remaining files. -/
theorem C99_not_displaced (env : PkgEnv) (visited rest : List Node) (hplaces : (placesList (visited ++ rest)).Nodup)
    (hspecs : ∀ name decls, .file name decls ∈ visited ++ rest → ValueSpecs decls) (hok : FilesOk (visited ++ rest)) (t t' : Table)
    (h : visitPackageSyntax env visited [] = some t) (h' : visitPackageSyntax env rest t = some t') (q : Nat) (sym : Str)
    (hq : t.getSymbol q = some sym) : t'.getSymbol q = some sym := by
  have happ : ∀ (a b : List Node) (t : Table), visitPackageSyntax env (a ++ b) t = (visitPackageSyntax env a t).bind (visitPackageSyntax env b) := by
    intro a b
    induction a with
    | nil => intro t; rfl
    | cons f a ih =>
      intro t
      simp only [List.cons_append, visitPackageSyntax]
      cases visitSyntax env f t with
      | none => rfl
      | some t => exact ih t
  obtain ⟨t₁, ht₁, hc₁⟩ := (visitPackageSyntax_regs (Q := fun _ _ => True) env visited (fun n d hm => hok n d (List.mem_append_left _ hm))
    fun _ _ _ d _ => DeclQ_true d).collected []
  rw [h] at ht₁
  cases ht₁
  obtain ⟨t₂, ht₂, hall⟩ := C99_own_symbol env (visited ++ rest) hplaces hspecs hok
  rw [happ, h, Option.bind_some, h'] at ht₂
  cases ht₂
  simp only [Table.getSymbol, Option.map_eq_some_iff] at hq
  obtain ⟨info, hget, rfl⟩ := hq
  rcases hc₁.sound q info hget with hnil | ⟨i, ds, hd, hs, _⟩
  · simp [Table.get] at hnil
  · rw [hs]
    obtain ⟨name, decls, hf, hd⟩ := hd
    exact hall i ds q ⟨name, decls, List.mem_append_left _ hf, hd⟩

/-- In a parsed project in which no function literal of a package-level variable declares variables, nothing is ambiguous. -/
theorem unambiguous_of_parsed (ht : TypedProject D project all objs) (hp : ParsedProject project)
    (hnest : ∀ p, (p.path, p) ∈ project → ∀ f ∈ p.files, NoNestedDeclarations f.decls) : Unambiguous project where
  once p hm q i ds i' ds' h h' := C99_one_entity hp p hm q i i' ds ds' h h'
  documented p hm q i ds h := by
    obtain ⟨name, decls, hf, h⟩ := h
    obtain ⟨f, hfm, e⟩ := List.mem_map.1 hf
    simp only [SourceFile.node, Node.file.injEq] at e
    obtain ⟨_, rfl⟩ := e
    exact ⟨f, hfm, DeclsDeclare.documented (hp.specs p hm f hfm) (hnest p hm f hfm) h⟩
  clause p hm f hf i ds h :=
    PackageDeclares.not_clause (distinct_package hp.places hm) (List.mem_map.2 ⟨f, List.mem_of_head? hf, rfl⟩) h
  packages p p' hm hm' q sym sym' h h' := (C99_apart hp p p' hm hm' q sym sym' h h').1
  switches p hm := ht.implicits _ p hm

theorem onlyDeclares_of_parsed (hp : ParsedProject project) {p : Package} (hm : (p.path, p) ∈ project) {i : Ident} {ds : List Descriptor}
    (h : PackageDeclares p.env (p.files.map SourceFile.node) i ds i.pos) : OnlyDeclares p i ds :=
  ⟨h, fun i' ds' h' => C99_one_entity hp p hm _ i' i ds' ds h' h⟩

/-- **C99** (whole run): in the index of a parsed project, every entity that a package declares is described in the document of its file, under its own symbol
and with its own name, kind, signature and comments, and no other description stands for its position. -/
theorem C99_described (ord : MapOrders) (w : Writer) (ht : TypedProject D project all objs) (hv : ValidMapOrders ord) (hn : NamedTypes D project all)
    (hdist : ∀ p, (p.path, p) ∈ project → DistinctIdents p) (horig : ∀ r ∈ objs, ∀ q, (entityOf r).cls ≠ .pkgName q) (hp : ParsedProject project)
    (n : Nat) (e : Package × SourceFile) (he : (filesOf (sortedValues project))[n]? = some e) (path : Str) (occs : List Occurrence)
    (syms : List (SymInfo × List Str)) (hm : (index D o ord w (.ok (project, all))).messages[n + 1]? = some (.document path occs syms))
    (i : Ident) (ds : List Descriptor) (q : Nat) (h : PackageDeclares e.1.env (e.1.files.map SourceFile.node) i ds q)
    (hq : D.fileOf q = some e.2.file) :
    ∃ s ∈ syms, s.1.symbol = e.1.env.fromDescriptors ds ∧ s.1.displayName = i.name ∧
      s.1.kind = kindForObject ((e.1.env.defs i.uid).map (·.self)) ∧
      s.1.signature = ((e.1.env.defs i.uid).bind fun d => if e.1.env.signature d = [] then none else some (e.1.env.signature d)) ∧
      (∀ f ∈ e.1.files, ∀ docs, DocumentedAs f.decls i docs → s.1.documentation = docs) ∧
      RelationshipsAt D o project all e.1 q s.2 := by
  obtain ⟨hpm, hf, _⟩ := mem_project_files ht (List.mem_of_getElem? he)
  obtain ⟨qs, entities, locals, hperm, hnd, hqs, hall, _⟩ :=
    (C87_document D o ord w project all objs ht hv hn hdist horig n e he path occs syms hm).descriptions
  have hmem := (hqs q).2 ⟨hq, _, .inl ⟨i, ds, h, rfl⟩⟩
  obtain ⟨k, hk⟩ := List.mem_iff_getElem?.1 hmem
  rw [List.forall₂_iff_get] at hall
  obtain ⟨hlen, hall⟩ := hall
  obtain ⟨hklt, hkq⟩ := List.getElem?_eq_some_iff.1 hk
  have := hall k hklt (by omega)
  simp only [List.get_eq_getElem, hkq] at this
  refine ⟨entities[k], hperm.symm.subset (List.mem_append_left _ (List.getElem_mem _)), ?_⟩
  obtain ⟨hinfo, hrel⟩ := this
  cases hinfo with
  | entity i' ds' h' h1 h2 h3 h4 h5 =>
    obtain ⟨rfl, rfl⟩ := C99_one_entity hp e.1 hpm q i' i ds' ds h' h
    exact ⟨h1, h2, h3, h4, h5, hrel⟩
  | clause f hfirst hpos _ =>
    subst hpos
    exact absurd h (PackageDeclares.not_clause (distinct_package hp.places hpm) (List.mem_map.2 ⟨f, List.mem_of_head? hfirst, rfl⟩))

/-- **C99** (whole run): C15 for a parsed project: the definition of an entity, its description and every reference to it have its own symbol, whatever else is
declared. -/
theorem C99_reference (ord : MapOrders) (w : Writer) (ht : TypedProject D project all objs) (hv : ValidMapOrders ord) (hp : ParsedProject project)
    (a b : Nat) (e₁ e₂ : Package × SourceFile)
    (he₁ : (filesOf (sortedValues project))[a]? = some e₁) (he₂ : (filesOf (sortedValues project))[b]? = some e₂)
    (path₁ path₂ : Str) (occs₁ occs₂ : List Occurrence) (syms₁ syms₂ : List (SymInfo × List Str))
    (hm₁ : (index D o ord w (.ok (project, all))).messages[a + 1]? = some (.document path₁ occs₁ syms₁))
    (hm₂ : (index D o ord w (.ok (project, all))).messages[b + 1]? = some (.document path₂ occs₂ syms₂))
    (i u : Ident) (hi : i ∈ identsOf (fileEventsOf D all e₁.1 e₁.2)) (hu : u ∈ identsOf (fileEventsOf D all e₂.1 e₂.2))
    (hib : i.name ≠ go!"_") (hub : u.name ≠ go!"_")
    (hsi : ∀ x ∈ e₁.1.implicits, x.self.pos ≠ i.pos) (hsu : ∀ x ∈ e₂.1.implicits, x.self.pos ≠ u.pos)
    (ds : List Descriptor) (hdecl : PackageDeclares e₁.1.env (e₁.1.files.map SourceFile.node) i ds i.pos)
    (d r : Obj) (hd : e₁.1.env.defs i.uid = some d) (hr : e₂.1.env.uses u.uid = some r)
    (hpos : r.self.pos = d.self.pos) (hpkg : r.self.pkg = some e₁.1.path) (hunsafe : e₁.1.path ≠ go!"unsafe")
    (hcls : r.self.cls ≠ .nil ∧ r.self.cls ≠ .label) :
    let sym := e₁.1.env.fromDescriptors ds
    (∃ x ∈ occs₁, x.isDef = true ∧ x.range = identSpan (sourceEnv D e₁.1) i ∧ x.symbol = sym) ∧
    (∃ x ∈ occs₂, x.isDef = false ∧ x.range = identSpan (sourceEnv D e₂.1) u ∧ x.symbol = sym) ∧
    (∃ x ∈ syms₁, x.1.symbol = sym) :=
  C15_whole_run D o ord w project all objs ht hv a b e₁ e₂ he₁ he₂ path₁ path₂ occs₁ occs₂ syms₁ syms₂ hm₁ hm₂ i u hi hu hib hub hsi hsu ds hdecl
    (fun i' ds' h' => (C99_one_entity hp e₁.1 (mem_project_files ht (List.mem_of_getElem? he₁)).1 _ i' i ds' ds h' hdecl).2)
    d r hd hr hpos hpkg hunsafe hcls

/-- **C99**: the content of the index of a parsed project is determined by the source, the types and the flags. -/
theorem C99_determined (ht : TypedProject D project all objs) (hn : NamedTypes D project all) (hp : ParsedProject project)
    (hnest : ∀ p, (p.path, p) ∈ project → ∀ f ∈ p.files, NoNestedDeclarations f.decls) (ms ms' : List Message)
    (h : IndexOf D o project all ms) (h' : IndexOf D o project all ms') : SameIndex ms ms' :=
  C87_determined ht hn (unambiguous_of_parsed ht hp hnest) ms ms' h h'

end Verif
