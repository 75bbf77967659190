import Verif.Lemmas.KeptDeclaration
import Verif.Props.Naming
/-!
# C110: a declaration that is kept keeps its symbols

However a package is edited around a declaration — other declarations added, changed, removed or reordered, the declaration itself moved to another
line or to another file — the entities that it declares have the same symbols as before.  The only exception are the fields of an anonymous type in a variable
or constant spec with several names: their symbols contain the line and column of the spec.
-/
namespace Verif
open Spec Index

variable {ρ : Renaming} {p p' : Package} {d : Node}

/-- **C110**, for everything that a declaration declares: it is declared by the declaration at its new place, under the same symbol, unless
the path contains the name of a place. -/
theorem C110_same_symbol (h : KeptDeclaration ρ p p' d) (i : Ident) (ds : List Descriptor) (q : Nat) (hd : DeclaredBy p.env d i ds q)
    (hn : ∀ x ∈ ds, ¬ NamesPlace x) :
    DeclaredAs p q (p.env.fromDescriptors ds) ∧ DeclaredAs p' (ρ.pos q) (p.env.fromDescriptors ds) ∧
    PackageDeclares p'.env (p'.files.map SourceFile.node) (renIdent ρ i) ds (ρ.pos q) := by
  obtain ⟨f, hf, hdf⟩ := h.before
  obtain ⟨f', hf', hdf'⟩ := h.after
  obtain ⟨ds', h1, h2⟩ := DeclaredBy.ren hd h.path h.literals
  rw [samePath_eq h1 hn] at h2
  have hp' : PackageDeclares p'.env (p'.files.map SourceFile.node) (renIdent ρ i) ds (ρ.pos q) :=
    ⟨_, _, List.mem_map.2 ⟨f', hf', rfl⟩, DeclaredBy.package h2 hdf'⟩
  refine ⟨.inl ⟨i, ds, ⟨_, _, List.mem_map.2 ⟨f, hf, rfl⟩, DeclaredBy.package hd hdf⟩, rfl⟩, .inl ⟨_, ds, hp', ?_⟩, hp'⟩
  unfold PkgEnv.fromDescriptors
  rw [h.module]

/-- Everything that a package declares, one of its declarations declares by itself: so C110 is about all of it. -/
theorem C110_by_declarations (p : Package) (i : Ident) (ds : List Descriptor) (q : Nat) :
    PackageDeclares p.env (p.files.map SourceFile.node) i ds q ↔ ∃ f ∈ p.files, ∃ d ∈ f.decls, DeclaredBy p.env d i ds q := by
  constructor
  · rintro ⟨name, decls, hf, h⟩
    obtain ⟨f, hf, e⟩ := List.mem_map.1 hf
    simp only [SourceFile.node, Node.file.injEq] at e
    obtain ⟨d, hd, h⟩ := declaredBy_of h
    exact ⟨f, hf, d, e.2 ▸ hd, h⟩
  · rintro ⟨f, hf, d, hd, h⟩
    exact ⟨_, _, List.mem_map.2 ⟨f, hf, rfl⟩, DeclaredBy.package h hd⟩

/-- Names of places occur only where a spec has several names: what a declaration declares has none in its path if each of the variable and constant specs in it
has one name and names do not contain `-`, as in Go. -/
theorem C110_no_places {env : PkgEnv} (i : Ident) (ds : List Descriptor) (q : Nat) (hd : DeclaredBy env d i ds q)
    (hone : ∀ pos names typ vs own c, Below d (.valueSpec pos names typ vs own c) → names.length ≤ 1 ∧ ∀ n ∈ names, '-' ∉ n.name)
    (hf : ∀ recv n typ body a b doc, d = .funcDecl recv n typ body a b doc → '-' ∉ n.name) : ∀ x ∈ ds, ¬ NamesPlace x := by
  cases hd with
  | typ h =>
    obtain ⟨tok, specs, doc, spec, _, _, h⟩ := h
    rintro x hx ⟨hm, _⟩
    cases h with
    | name =>
      simp only [List.mem_cons, List.not_mem_nil, or_false] at hx
      rcases hx with rfl | rfl <;> cases hm
    | member h => exact Member.noMeta h (by simp) x hx hm
  | func hm h =>
    rw [List.mem_singleton.1 hm] at h
    rintro x hx ⟨hm, rest, e⟩
    have recv : ∀ {ns r}, RecvPath ns r → x ∉ r := by
      intro ns r hr hx
      cases hr with
      | func => cases hx
      | method => rw [List.mem_singleton.1 hx] at hm; cases hm
    cases h with
    | name hr =>
      simp only [List.cons_append, List.mem_cons, List.mem_append, List.not_mem_nil, or_false] at hx
      rcases hx with rfl | hx | rfl
      · cases hm
      · exact recv hr hx
      · cases hm
    | result hr =>
      simp only [List.cons_append, List.mem_cons, List.mem_append, List.not_mem_nil, or_false] at hx
      rcases hx with rfl | hx | rfl | rfl | rfl
      · cases hm
      · exact recv hr hx
      · simp at e
      · exact hf _ _ _ _ _ _ _ rfl (by dsimp only at e; rw [e]; simp)
      · cases hm
  | var hm ht h =>
    rw [List.mem_singleton.1 hm] at *
    rintro x hx ⟨hmeta, rest, e⟩
    rcases VarDeclares.scopes h x hx hmeta with h | ⟨pos, names, typ, vs, own, c, hb, hne, rfl⟩
    · rw [List.mem_singleton.1 h] at hmeta; cases hmeta
    · obtain ⟨h1, h2⟩ := hone _ _ _ _ _ _ hb
      have h1 : names.length = 1 := by have := List.length_pos_iff.2 hne; omega
      simp only [specScopeName, h1, dite_true] at e
      exact h2 _ (List.getElem_mem _) (by rw [e]; simp)

/-- The entities with a name of their own are declared by declarations: so `C110_index` is about all of them. -/
theorem C110_named (p : Package) (i : Ident) (ds : List Descriptor) :
    NamedEntity p.env (p.files.map SourceFile.node) i ds ↔ ∃ f ∈ p.files, ∃ d ∈ f.decls, NamedBy1 p.env d i ds := by
  have top : ∀ {d}, TopLevel (p.files.map SourceFile.node) d ↔ ∃ f ∈ p.files, d ∈ f.decls := by
    intro d
    constructor
    · rintro ⟨name, decls, hf, hd⟩
      obtain ⟨f, hf, e⟩ := List.mem_map.1 hf
      simp only [SourceFile.node, Node.file.injEq] at e
      exact ⟨f, hf, e.2 ▸ hd⟩
    · rintro ⟨f, hf, hd⟩
      exact ⟨_, _, List.mem_map.2 ⟨f, hf, rfl⟩, hd⟩
  constructor
  · intro h
    obtain ⟨d, hd, h⟩ := namedBy1_of h
    obtain ⟨f, hf, hd⟩ := top.1 hd
    exact ⟨f, hf, d, hd, h⟩
  · rintro ⟨f, hf, d, hd, h⟩
    exact NamedBy1.package h (top.2 ⟨f, hf, hd⟩)

/-- **C110**, whole run: an entity with a name of its own, declared by a declaration that is kept, has one symbol before and after.  In both indexes exactly one
description and exactly one definition have this symbol; the description says the same (name, kind, documentation, and the signature if the object is still written the same), and the definition is at the identifier,
where it now is. -/
theorem C110_index (D D' : Deps) (o o' : Opts) (ord ord' : MapOrders) (w w' : Writer) (project all project' all' : GoMap Package)
    (objs objs' : List Obj) (ht : TypedProject D project all objs) (ht' : TypedProject D' project' all' objs')
    (hv : ValidMapOrders ord) (hv' : ValidMapOrders ord') (hn : NamedTypes D project all) (hn' : NamedTypes D' project' all')
    (hdist : ∀ p, (p.path, p) ∈ project → DistinctIdents p) (hdist' : ∀ p, (p.path, p) ∈ project' → DistinctIdents p)
    (horig : ∀ r ∈ objs, ∀ q, (entityOf r).cls ≠ .pkgName q) (horig' : ∀ r ∈ objs', ∀ q, (entityOf r).cls ≠ .pkgName q)
    (hp : ParsedProject project) (hp' : ParsedProject project')
    (hfields : ∀ p, (p.path, p) ∈ all → fieldOk p.env.module.path ∧ fieldOk p.env.module.version)
    (hfields' : ∀ p, (p.path, p) ∈ all' → fieldOk p.env.module.path ∧ fieldOk p.env.module.version)
    (hok : (index D o ord w (.ok (project, all))).outcome = .ok) (hok' : (index D' o' ord' w' (.ok (project', all'))).outcome = .ok)
    (hm : (p.path, p) ∈ project) (hm' : (p'.path, p') ∈ project')
    (hg : GoNames (p.files.map SourceFile.node)) (hg' : GoNames (p'.files.map SourceFile.node))
    (hk : KeptDeclaration ρ p p' d) (i : Ident) (ds : List Descriptor) (hi : NamedBy1 p.env d i ds)
    (hr : ∃ f ∈ p.files, i ∈ identsOf (fileEventsOf D all p f)) (hr' : ∃ f ∈ p'.files, renIdent ρ i ∈ identsOf (fileEventsOf D' all' p' f))
    (hdef : (p.env.defs i.uid).isSome) (hdef' : (p'.env.defs (ρ.ident i.uid)).isSome)
    (hkind : kindForObject ((p'.env.defs (ρ.ident i.uid)).map (·.self)) = kindForObject ((p.env.defs i.uid).map (·.self)))
    (hsw : ¬ SwitchIdent p i) (hsw' : ¬ SwitchIdent p' (renIdent ρ i)) :
    let ms := (index D o ord w (.ok (project, all))).messages
    let ms' := (index D' o' ord' w' (.ok (project', all'))).messages
    ∃ (sym : Str) (s s' : SymInfo × List Str) (x x' : Occurrence), sym = p.env.fromDescriptors ds ∧
      (descriptionsOf ms).filter (fun s => s.1.symbol = sym) = [s] ∧ (descriptionsOf ms').filter (fun s => s.1.symbol = sym) = [s'] ∧
      s'.1.displayName = s.1.displayName ∧ s'.1.kind = s.1.kind ∧
      ((p'.env.defs (ρ.ident i.uid)).map p'.env.signature = (p.env.defs i.uid).map p.env.signature → s'.1.signature = s.1.signature) ∧
      (∀ docs, DocumentedAs [d] i docs → s.1.documentation = docs ∧ s'.1.documentation = docs) ∧
      (definitionsOf ms).filter (fun x => x.symbol = sym) = [x] ∧ (definitionsOf ms').filter (fun x => x.symbol = sym) = [x'] ∧
      x.range = identSpan (sourceEnv D p) i ∧ x'.range = identSpan (sourceEnv D' p') (renIdent ρ i) := by
  intro ms ms'
  obtain ⟨f, hf, hr⟩ := hr
  obtain ⟨f', hf', hr'⟩ := hr'
  obtain ⟨g, hg1, hg2⟩ := hk.before
  obtain ⟨g', hg1', hg2'⟩ := hk.after
  have hd : Denoted D project all p f i ds := ⟨hm, hf, hg, (C110_named p i ds).2 ⟨g, hg1, d, hg2, hi⟩, hr⟩
  have hd' : Denoted D' project' all' p' f' (renIdent ρ i) ds :=
    ⟨hm', hf', hg', (C110_named p' _ ds).2 ⟨g', hg1', _, hg2', NamedBy1.ren hi hk.path hk.literals⟩, hr'⟩
  have e : p'.env.fromDescriptors ds = p.env.fromDescriptors ds := by unfold PkgEnv.fromDescriptors; rw [hk.module]
  obtain ⟨⟨s, a1, a2, a3, a5, a4⟩, ⟨x, b1, b2⟩, _⟩ :=
    C100_whole_run ord w ht hv hn hdist horig hp hfields hok hd hdef hsw
  obtain ⟨⟨s', a1', a2', a3', a5', a4'⟩, ⟨x', b1', b2'⟩, _⟩ :=
    C100_whole_run ord' w' ht' hv' hn' hdist' horig' hp' hfields' hok' hd' hdef' hsw'
  rw [e] at a1' b1'
  exact ⟨_, s, s', x, x', rfl, a1, a1', by rw [a2, a2']; rfl, by rw [a3, a3']; exact hkind,
    fun hs => by
      rw [a5, a5']
      show ((p'.env.defs (ρ.ident i.uid)).bind _) = _
      cases h1 : p.env.defs i.uid <;> cases h2 : p'.env.defs (ρ.ident i.uid) <;> simp_all,
    fun docs hdocs => ⟨a4 _ hg1 _ (DocumentedAs.among hdocs hg2), a4' _ hg1' _ (DocumentedAs.among (DocumentedAs.ren hdocs) hg2')⟩, b1, b1', b2, b2'⟩

end Verif
