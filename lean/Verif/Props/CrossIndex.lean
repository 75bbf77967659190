import Verif.Spec.CrossIndex
import Verif.Props.CrossModuleExact
import Verif.Props.Naming
/-! # C111: go to definition from one index into another -/
namespace Verif
open Spec Index

theorem entityDecl_cls {scopes : Scopes} {sname : Nat → List Ident → Str} {pkg : Str} {decls : List Node} {n : Ident} {o : ObjData} {ok : Prop}
    (h : EntityDecl scopes sname pkg decls n o ok) : (∀ q, o.cls ≠ .pkgName q) ∧ o.cls ≠ .nil ∧ o.cls ≠ .label := by
  cases h with
  | typ _ _ hc _ => simp [hc]
  | value _ _ _ hc _ => rcases hc with hc | hc <;> simp [hc]
  | func _ hc _ => simp [hc]
  | method _ _ hc _ _ _ => simp [hc]
  | field _ _ _ _ hc _ _ _ _ => simp [hc]
  | ifaceMethod _ _ _ _ hc _ => simp [hc]

theorem self_cls_of_entity {r : Obj} {c : ObjClass} (hc : c = .nil ∨ c = .label) (h : r.self.cls = c) : (entityOf r).cls = c := by
  subst h
  unfold entityOf
  rcases hc with hc | hc <;> simp [hc]

theorem Member.last {key : Node → Str} {isI : Bool} {t : Node} {o : List Descriptor} {i : Ident} {ds : List Descriptor} (h : Member key isI t o i ds) :
    ∃ s pre, ds = pre ++ [⟨i.name, s⟩] := by
  induction h with
  | named => exact ⟨_, _, rfl⟩
  | embedded => exact ⟨_, _, rfl⟩
  | embeddedLit _ _ _ ih => exact ih
  | anon _ _ _ _ _ ih => exact ih

/-- The path of a named entity ends with its name. -/
theorem NamedEntity.last {env : PkgEnv} {files : List Node} {i : Ident} {ds : List Descriptor} (h : NamedEntity env files i ds) :
    ∃ s pre, ds = pre ++ [⟨i.name, s⟩] := by
  cases h with
  | typ => exact ⟨_, [_], rfl⟩
  | value => exact ⟨_, [_], rfl⟩
  | func => exact ⟨_, [_], rfl⟩
  | method => exact ⟨_, [_, _], rfl⟩
  | member _ _ _ hm _ => exact Member.last hm

section
variable {D D' : Deps} {project all project' all' : GoMap Package} {objs' : List Obj} {p : Package} {f : SourceFile} {i : Ident} {ds : List Descriptor}
  {ok : Prop} {r : Obj}

/-- The path of the entity as it is declared, and as it is made from type information. -/
theorem crossPath (hp : ParsedProject project) (hd : Denoted D project all p f i ds) {g : SourceFile} (hg : g ∈ p.files)
    (ho : EntityDecl D'.scopes (specScopeName p.env.position) p.env.pkgPath g.decls i (entityOf r) ok) :
    ds ≠ [] ∧ (ds = describe D'.scopes p.env.pkgPath (entityOf r) ↔ ok) := by
  obtain ⟨ds', h1, h2, h3⟩ := entityDecl_path _ _ _ _ _ _ ho
  have h : PackageDeclares p.env (p.files.map SourceFile.node) i ds' i.pos := ⟨g.name, g.decls, List.mem_map.2 ⟨g, hg, rfl⟩, h1⟩
  obtain ⟨_, rfl⟩ := C99_one_entity hp p hd.package _ i i ds' ds h (NamedEntity.declares hd.entity)
  exact ⟨h2, h3⟩

/-- What the object is called in the other run. -/
theorem crossNamed (hk : DependencyIn project' all' p) (hkey : Keyed all')
    (hcls : (∀ q, (entityOf r).cls ≠ .pkgName q) ∧ (entityOf r).cls ≠ .nil ∧ (entityOf r).cls ≠ .label) (hpkg : r.self.pkg = some p.env.pkgPath)
    (sym : Str) : NamedBy D' project' all' r sym ↔
      describe D'.scopes p.env.pkgPath (entityOf r) ≠ [] ∧ sym = p.env.fromDescriptors (describe D'.scopes p.env.pkgPath (entityOf r)) := by
  have hno : ∀ s, ¬ NamedInProject project' p.env.pkgPath r s := by
    rintro s ⟨q, hq, hv, _⟩
    exact hk.notIndexed q hq hv
  constructor
  · rintro ⟨_, _, path, hp, _, h⟩
    rw [hpkg] at hp
    cases hp
    rcases h with h | ⟨_, q, ds', hq, hdep, rfl⟩
    · exact absurd h (hno _)
    · obtain ⟨q', hq', hm⟩ := hk.loaded
      have e1 := GoMap.get_of_mem hkey.nodup hq
      rw [GoMap.get_of_mem hkey.nodup hq', Option.some.injEq] at e1
      subst e1
      obtain ⟨rfl, hne⟩ := (describe_iff D'.scopes _ _ hcls.1 _).2 hdep
      exact ⟨hne, by rw [hm]; rfl⟩
  · rintro ⟨hne, rfl⟩
    obtain ⟨q', hq', hm⟩ := hk.loaded
    refine ⟨fun h => hcls.2.1 (self_cls_of_entity (.inl rfl) h), fun h => hcls.2.2 (self_cls_of_entity (.inr rfl) h), _, hpkg, hk.safe,
      .inr ⟨hno, q', _, hq', (describe_iff D'.scopes _ _ hcls.1 _).1 ⟨rfl, hne⟩, by rw [hm]; rfl⟩⟩

/-- **C111**, exactly: a run indexes package `p` from source and another one knows it from type information; in the latter an identifier is used for an
entity that `p` declares at `i`.  If the condition `ok` holds that C04 gives, then the identifier has exactly one reference, and its symbol is the one of the
definition in the first index; otherwise no reference of the identifier has this symbol. -/
theorem C111_reference (ht' : TypedProject D' project' all' objs') (hp : ParsedProject project)
    (hfields : fieldOk p.env.module.path ∧ fieldOk p.env.module.version) (hd : Denoted D project all p f i ds) (g : SourceFile) (hg : g ∈ p.files)
    (ho : EntityDecl D'.scopes (specScopeName p.env.position) p.env.pkgPath g.decls i (entityOf r) ok)
    (hk : DependencyIn project' all' p) (e : Package × SourceFile) (u : Ident) (hu : UsesEntity D' all' e u r p.env.pkgPath)
    (upto : List Ident) (os : List Occurrence) (hr : IdentRefs D' project' all' e upto u os) :
    (ok → ∃ dep, os = [⟨identSpan (sourceEnv D' e.1) u, p.env.fromDescriptors ds, false, none, dep⟩]) ∧
    (¬ ok → ∀ x ∈ os, x.symbol ≠ p.env.fromDescriptors ds) := by
  obtain ⟨hne, hiff⟩ := crossPath hp hd hg ho
  have hnamed := crossNamed (D' := D') hk ht'.all_keyed (entityDecl_cls ho) hu.pkg
  have hloc : ∀ l ∈ localIdents D' all' e.1 e.2, l ∈ upto → l.pos ≠ r.self.pos := fun l hl _ => hu.notLocal l hl
  constructor
  · intro hok
    have hds := hiff.2 hok
    obtain ⟨sym, dep, hos, hs⟩ := hr.toEntity hu.name hu.noSwitch r hu.uses hloc ⟨_, (hnamed _).2 ⟨hds ▸ hne, rfl⟩⟩
    obtain ⟨_, rfl⟩ := (hnamed _).1 hs
    exact ⟨dep, by rw [hos, hds]⟩
  · intro hok x hx hsym
    by_cases hex : ∃ sym, NamedBy D' project' all' r sym
    · obtain ⟨sym, dep, hos, hs⟩ := hr.toEntity hu.name hu.noSwitch r hu.uses hloc hex
      obtain ⟨_, rfl⟩ := (hnamed _).1 hs
      rw [hos, List.mem_singleton] at hx
      subst hx
      exact hok (hiff.1 (C01_symbol_injective _ _ _ _ _ _ hfields.1 hfields.2 hfields.1 hfields.2 hsym).2.2.symm)
    · rw [hr.unnamed hu.name hu.noSwitch r hu.uses hloc (fun s h => hex ⟨s, h⟩)] at hx
      simp at hx

omit ok in
/-- **C111**, conversely: if a reference made from type information has the symbol of an entity that the first index describes, then it belongs to an object of
the package with the same path in the same module version, this object has the name of the entity, and is known under the path under which the entity is
declared.  So it never leads to another package, version or name. -/
theorem C111_leads_right (ht' : TypedProject D' project' all' objs') (hfields : fieldOk p.env.module.path ∧ fieldOk p.env.module.version)
    (hfields' : ∀ q, (q.path, q) ∈ all' → fieldOk q.env.module.path ∧ fieldOk q.env.module.version)
    (hd : Denoted D project all p f i ds) (e : Package × SourceFile) (u : Ident) (path : Str) (hu : UsesEntity D' all' e u r path)
    (hdep : ∀ q, (q.path, q) ∈ project' → q.path ∉ variants path)
    (upto : List Ident) (os : List Occurrence) (hr : IdentRefs D' project' all' e upto u os) (x : Occurrence) (hx : x ∈ os)
    (hsym : x.symbol = p.env.fromDescriptors ds) :
    path = p.env.pkgPath ∧ (∃ q, (path, q) ∈ all' ∧ q.env.module = p.env.module) ∧ (entityOf r).name = i.name ∧
      DependencyPath D'.scopes path (entityOf r) ds := by
  have hloc : ∀ l ∈ localIdents D' all' e.1 e.2, l ∈ upto → l.pos ≠ r.self.pos := fun l hl _ => hu.notLocal l hl
  by_cases hex : ∃ sym, NamedBy D' project' all' r sym
  · obtain ⟨sym, dep, hos, _, _, path', hp, _, h⟩ := hr.toEntity hu.name hu.noSwitch r hu.uses hloc hex
    rw [hu.pkg, Option.some.injEq] at hp
    subst hp
    rw [hos, List.mem_singleton] at hx
    subst hx
    rcases h with ⟨q, hq, hv, _⟩ | ⟨_, q, ds', hq, hpath, rfl⟩
    · exact absurd hv (hdep q hq)
    · have hf := hfields' q (by rw [ht'.all_keyed.path _ _ hq]; exact hq)
      obtain ⟨h1, h2, h3⟩ := C01_symbol_injective _ _ _ _ _ _ hf.1 hf.2 hfields.1 hfields.2 hsym
      subst h3
      obtain ⟨s, pre, hl⟩ := NamedEntity.last hd.entity
      obtain ⟨d, rest, hh⟩ := NamedEntity.path hd.entity
      refine ⟨?_, ⟨q, hq, ?_⟩, ?_, hpath⟩
      · cases hpath <;> simp only [List.cons.injEq, Descriptor.mk.injEq, and_true] at hh <;> exact hh.1
      · cases hq' : q.env.module; cases hp' : p.env.module
        simp only [hq', hp'] at h1 h2
        rw [h1, h2]
      · have := congrArg List.getLast? hl
        cases hpath <;> simp at this <;> exact this.1
  · rw [hr.unnamed hu.name hu.noSwitch r hu.uses hloc (fun s h => hex ⟨s, h⟩)] at hx
    simp at hx

/-- **C111** (whole runs): under these conditions, the document of the file in the second index has a reference over the identifier whose symbol leads to
exactly one definition in the first index, which is over the declaring identifier, and to exactly one description there. -/
theorem C111_whole_runs {objs : List Obj} (o o' : Opts) (ord ord' : MapOrders) (w w' : Writer) (ht : TypedProject D project all objs) (hv : ValidMapOrders ord)
    (hn : NamedTypes D project all) (hdist : ∀ p, (p.path, p) ∈ project → DistinctIdents p) (horig : ∀ r ∈ objs, ∀ q, (entityOf r).cls ≠ .pkgName q)
    (hp : ParsedProject project) (hfields : ∀ p, (p.path, p) ∈ all → fieldOk p.env.module.path ∧ fieldOk p.env.module.version)
    (hrun : (index D o ord w (.ok (project, all))).outcome = .ok)
    (hd : Denoted D project all p f i ds) (hdef : (p.env.defs i.uid).isSome) (hsw : ¬ SwitchIdent p i)
    (ht' : TypedProject D' project' all' objs') (hv' : ValidMapOrders ord') (horig' : ∀ r ∈ objs', ∀ q, (entityOf r).cls ≠ .pkgName q)
    (g : SourceFile) (hg : g ∈ p.files)
    (ho : EntityDecl D'.scopes (specScopeName p.env.position) p.env.pkgPath g.decls i (entityOf r) ok) (hok : ok)
    (hk : DependencyIn project' all' p) (k : Nat) (e : Package × SourceFile) (he : (filesOf (sortedValues project'))[k]? = some e) (path : Str)
    (occs : List Occurrence) (syms : List (SymInfo × List Str))
    (hm : (index D' o' ord' w' (.ok (project', all'))).messages[k + 1]? = some (.document path occs syms))
    (u : Ident) (hread : u ∈ identsOf (fileEventsOf D' all' e.1 e.2)) (hu : UsesEntity D' all' e u r p.env.pkgPath) :
    let ms := (index D o ord w (.ok (project, all))).messages
    ∃ x ∈ occs, x.isDef = false ∧ x.range = identSpan (sourceEnv D' e.1) u ∧
      (∃ d, (definitionsOf ms).filter (fun y => y.symbol = x.symbol) = [d] ∧ d.range = identSpan (sourceEnv D p) i) ∧
      (∃ s, (descriptionsOf ms).filter (fun s => s.1.symbol = x.symbol) = [s] ∧ s.1.displayName = i.name) ∧
      ∀ rels, .external x.symbol rels ∉ ms := by
  obtain ⟨⟨s, h1, h2, _⟩, h3, h4⟩ := C100_whole_run ord w ht hv hn hdist horig hp hfields hrun hd hdef hsw
  obtain ⟨parts, hflat, hlen, hparts⟩ := C13_whole_run D' o' ord' w' project' all' objs' ht' hv' horig' k e he path occs syms hm
  obtain ⟨decl, hread⟩ := mem_identsOf.1 hread
  obtain ⟨j, hj, hje⟩ := List.mem_iff_getElem.1 hread
  have hev : (fileEventsOf D' all' e.1 e.2)[j]? = some (.ident u decl) := by rw [List.getElem?_eq_getElem hj, hje]
  have hos : parts[j]? = some (parts[j]'(hlen ▸ hj)) := List.getElem?_eq_getElem _
  obtain ⟨dep, hd'⟩ := (C111_reference ht' hp (hfields p (ht.sub _ _ hd.package)) hd g hg ho hk e u hu _ _ (hparts j _ _ hev hos)).1 hok
  have hx : (⟨identSpan (sourceEnv D' e.1) u, p.env.fromDescriptors ds, false, none, dep⟩ : Occurrence) ∈ occs.filter (fun x => !x.isDef) := by
    rw [hflat, List.mem_flatten]
    exact ⟨_, List.getElem_mem (hlen ▸ hj), by rw [hd']; simp⟩
  exact ⟨_, (List.mem_filter.1 hx).1, rfl, rfl, h3, ⟨s, h1, h2⟩, h4⟩

end

end Verif
