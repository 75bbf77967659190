import Verif.Lemmas.Naming
import Verif.Props.Places
/-!
# C100: a symbol denotes one entity of the project

Types, functions, methods, package-level variables and constants, and the members of type declarations have symbols of their own: no two of them, and nothing
else that the project declares, share one; so in the index each of these symbols has one description and one definition.
-/
namespace Verif
open Spec Index

variable {D : Deps} {o : Opts} {project all : GoMap Package} {objs : List Obj}

/-- **C100**: if an entity with a name of its own and anything else that the packages of the project declare have the same symbol, they are the same. -/
theorem C100_distinct (hk : Keyed project) (hp : ParsedProject project)
    (hfields : ∀ p, (p.path, p) ∈ project → fieldOk p.env.module.path ∧ fieldOk p.env.module.version)
    (p p' : Package) (hm : (p.path, p) ∈ project) (hm' : (p'.path, p') ∈ project) (hg : GoNames (p.files.map SourceFile.node))
    (i i' : Ident) (ds ds' : List Descriptor) (q : Nat) (h : NamedEntity p.env (p.files.map SourceFile.node) i ds)
    (h' : PackageDeclares p'.env (p'.files.map SourceFile.node) i' ds' q) (hs : p.env.fromDescriptors ds = p'.env.fromDescriptors ds') :
    p = p' ∧ i = i' ∧ ds = ds' ∧ q = i.pos := by
  obtain ⟨h1, h2⟩ := hfields p hm
  obtain ⟨h1', h2'⟩ := hfields p' hm'
  obtain ⟨_, _, rfl⟩ := C01_symbol_injective _ _ _ _ _ _ h1 h2 h1' h2' hs
  obtain ⟨d, r, rfl⟩ := NamedEntity.path h
  obtain ⟨r', e⟩ := PackageDeclares.path h'
  simp only [List.cons.injEq, Descriptor.mk.injEq, and_true] at e
  have e1 := GoMap.get_of_mem hk.nodup hm
  rw [show p.path = p'.path from e.1, GoMap.get_of_mem hk.nodup hm'] at e1
  simp only [Option.some.injEq] at e1
  subst e1
  obtain ⟨rfl, rfl⟩ := NamedEntity.determined (distinct_package hp.places hm) (valueSpecs_files (hp.specs _ hm)) hg h h'
  exact ⟨rfl, rfl, rfl, rfl⟩

/-- **C100**: nor is the symbol of such an entity the symbol of a package, or of an entity of a package outside of the project. -/
theorem C100_apart (ht : TypedProject D project all objs)
    (hfields : ∀ p, (p.path, p) ∈ all → fieldOk p.env.module.path ∧ fieldOk p.env.module.version)
    (p p' : Package) (hm : (p.path, p) ∈ project) (hm' : (p'.path, p') ∈ all) (i : Ident) (ds : List Descriptor)
    (h : NamedEntity p.env (p.files.map SourceFile.node) i ds) :
    p.env.fromDescriptors ds ≠ packageSymbol p' ∧
    ((∀ r, (p'.path, r) ∉ project) → ∀ r, p.env.fromDescriptors ds ≠ formatSymbol ⟨p'.env.module.path, p'.env.module.version⟩ (⟨p'.path, .nspace⟩ :: r)) := by
  obtain ⟨h1, h2⟩ := hfields p (ht.sub _ _ hm)
  obtain ⟨h1', h2'⟩ := hfields p' hm'
  obtain ⟨d, r, rfl⟩ := NamedEntity.path h
  refine ⟨fun e => ?_, fun hout r' e => ?_⟩
  · have := (C01_symbol_injective _ _ _ _ _ _ h1 h2 h1' h2' e).2.2
    simp at this
  · have := (C01_symbol_injective _ _ _ _ _ _ h1 h2 h1' h2' e).2.2
    simp only [List.cons.injEq, Descriptor.mk.injEq, and_true] at this
    exact hout p (by rw [← this.1]; exact hm)

/-- What is said about a symbol: a list has one element for it. -/
theorem flatMap_at {α β : Type} {m : List α} {g : α → List β} {k : Nat} {y : α} {x : β} (hk : m[k]? = some y) (hy : g y = [x])
    (h : ∀ (k' : Nat) y', m[k']? = some y' → k' ≠ k → g y' = []) : m.flatMap g = [x] := by
  induction m generalizing k with
  | nil => simp at hk
  | cons z m ih =>
    cases k with
    | zero =>
      simp only [List.length_cons, Nat.zero_lt_succ, List.getElem?_cons_zero, Option.some.injEq] at hk
      subst hk
      have : m.flatMap g = [] := by
        rw [List.flatMap_eq_nil_iff]
        intro y' hy'
        obtain ⟨k', hk'⟩ := List.mem_iff_getElem?.1 hy'
        exact h (k' + 1) y' (by simpa using hk') (by omega)
      rw [List.flatMap_cons, hy, this]
      rfl
    | succ k =>
      have hz : g z = [] := h 0 z (by simp) (by omega)
      rw [List.flatMap_cons, hz, List.nil_append]
      exact ih (by simpa using hk) fun k' y' h1 h2 => h (k' + 1) y' (by simpa using h1) (by omega)

theorem filter_eq_flatMap {α : Type} (P : α → Bool) (l : List α) : l.filter P = l.flatMap fun x => if P x then [x] else [] := by
  induction l with
  | nil => rfl
  | cons x l ih => by_cases h : P x <;> simp [h, ih]

theorem nodup_index {α : Type} {l : List α} (h : l.Nodup) {a b : Nat} {x : α} (ha : l[a]? = some x) (hb : l[b]? = some x) : a = b := by
  obtain ⟨ha, ea⟩ := List.getElem?_eq_some_iff.1 ha
  obtain ⟨hb, eb⟩ := List.getElem?_eq_some_iff.1 hb
  exact (List.Nodup.getElem_inj_iff h).1 (ea.trans eb.symm)

theorem event_index {es : List Event} (h : ((identsOf es).map (·.pos)).Nodup) {a b : Nat} {i j : Ident} {x y : Option (Nat × Nat)}
    (ha : es[a]? = some (.ident i x)) (hb : es[b]? = some (.ident j y)) (e : i.pos = j.pos) : a = b := by
  rw [List.Nodup, List.pairwise_map, identsOf, List.pairwise_filterMap, List.pairwise_iff_getElem] at h
  obtain ⟨ha, ea⟩ := List.getElem?_eq_some_iff.1 ha
  obtain ⟨hb, eb⟩ := List.getElem?_eq_some_iff.1 hb
  rcases Nat.lt_trichotomy a b with hab | rfl | hab
  · exact absurd e (h a b ha hb hab i (by rw [ea]) j (by rw [eb]))
  · rfl
  · exact absurd e.symm (h b a hb ha hab j (by rw [eb]) i (by rw [ea]))

section
variable {p : Package} {f : SourceFile} {i : Ident} {ds : List Descriptor}

theorem Denoted.declaredAs (hd : Denoted D project all p f i ds) (ht : TypedProject D project all objs) (hp : ParsedProject project)
    (hfields : ∀ p, (p.path, p) ∈ all → fieldOk p.env.module.path ∧ fieldOk p.env.module.version) {p' : Package} (hm' : (p'.path, p') ∈ project)
    {q : Nat} (h : DeclaredAs p' q (p.env.fromDescriptors ds)) : p' = p ∧ q = i.pos := by
  rcases h with ⟨i', ds', h, e⟩ | ⟨f, _, _, e⟩
  · obtain ⟨rfl, _, _, rfl⟩ := C100_distinct ht.project_keyed hp (fun p h => hfields p (ht.sub _ _ h)) p p' hd.package hm' hd.names i i' ds ds' q hd.entity h e
    exact ⟨rfl, rfl⟩
  · exact absurd e (C100_apart ht hfields p p' hd.package (ht.sub _ _ hm') i ds hd.entity).1

theorem files_nodup (ht : TypedProject D project all objs) {ps : List Package} (h : ps.Perm (project.map (·.2))) :
    ((ps.flatMap fun p => p.files.map fun f => (p, f)).map (·.2.file)).Nodup := by
  have := ht.files_apart
  unfold filesOf at this
  refine (List.Perm.nodup_iff (List.Perm.map _ ?_)).2 this
  exact List.Perm.flatMap_right _ h

theorem files_at (ht : TypedProject D project all objs) {ps : List Package} (h : ps.Perm (project.map (·.2))) {e : Package × SourceFile}
    (he : e ∈ ps.flatMap fun p => p.files.map fun f => (p, f)) : (e.1.path, e.1) ∈ project ∧ e.2 ∈ e.1.files := by
  simp only [List.mem_flatMap, List.mem_map] at he
  obtain ⟨p, hp, f, hf, rfl⟩ := he
  obtain ⟨x, hx, rfl⟩ := List.mem_map.1 (h.subset hp)
  have := ht.project_keyed.path x.1 x.2 hx
  exact ⟨by simp only [this]; exact hx, hf⟩

/-- References are not definitions. -/
theorem refs_not_def {e : Package × SourceFile} {upto : List Ident} {ev : Event} {os : List Occurrence} (h : EventRefs D project all e upto ev os) :
    ∀ x ∈ os, x.isDef = false := by
  classical
  intro x hx
  cases ev with
  | ident u decl =>
    simp only [EventRefs] at h
    by_cases hub : u.name = go!"_"
    · rw [h.nothing (.inl hub)] at hx; simp at hx
    by_cases hsw : SwitchIdent e.1 u
    · rw [h.nothing (.inr (.inl hsw))] at hx; simp at hx
    cases hu : e.1.env.uses u.uid with
    | none => rw [h.nothing (.inr (.inr hu))] at hx; simp at hx
    | some r =>
      by_cases hl : ∀ l ∈ localIdents D all e.1 e.2, l ∈ upto → l.pos ≠ r.self.pos
      · by_cases hn : ∃ sym, NamedBy D project all r sym
        · obtain ⟨sym, dep, rfl, _⟩ := h.toEntity hub hsw r hu hl hn
          rw [List.mem_singleton.1 hx]
        · rw [h.unnamed hub hsw r hu hl (by simpa using hn)] at hx; simp at hx
      · push Not at hl
        obtain ⟨l, hl, hup, hpos⟩ := hl
        obtain ⟨k, hk⟩ := List.mem_iff_getElem?.1 hl
        rw [h.toLocal hub hsw r hu k l hk hup hpos] at hx
        rw [List.mem_singleton.1 hx]
  | qualifier j obj imported =>
    simp only [EventRefs] at h
    by_cases hq : ∃ q, (imported, q) ∈ all
    · obtain ⟨q, hq⟩ := hq
      rw [h.1 q hq] at hx
      rw [List.mem_singleton.1 hx]
    · rw [h.2 (by simpa using hq)] at hx; simp at hx
  | imp uid name pathPos =>
    simp only [EventRefs, ImportRefs] at h
    by_cases hq : ∃ imported q, (e.1.pkgNameOf uid).bind e.1.imports = some imported ∧ (imported, q) ∈ all
    · obtain ⟨imported, q, h1, h2⟩ := hq
      rw [h.1 imported q h1 h2] at hx
      simp only [List.mem_append, List.mem_map, List.mem_singleton] at hx
      rcases hx with ⟨n, _, rfl⟩ | rfl <;> rfl
    · rw [h.2 (fun imported q h1 h2 => hq ⟨imported, q, h1, h2⟩)] at hx; simp at hx

theorem local_not_global (p : ScipPackage) (ds : List Descriptor) (k : Nat) : localName k ≠ formatSymbol p ds :=
  fun e => (C02_global_not_local p ds k).2.2 e.symm

/-- **C100**: in a complete index of the project, the symbol of an entity with a name of its own has exactly one description, in which the entity has its name
and kind. -/
theorem C100_one_description (ht : TypedProject D project all objs) (hp : ParsedProject project)
    (hfields : ∀ p, (p.path, p) ∈ all → fieldOk p.env.module.path ∧ fieldOk p.env.module.version) (ms : List Message) (h : IndexOf D o project all ms)
    (hd : Denoted D project all p f i ds) :
    ∃ s, (descriptionsOf ms).filter (fun s => s.1.symbol = p.env.fromDescriptors ds) = [s] ∧ s.1.displayName = i.name ∧
      s.1.kind = kindForObject ((p.env.defs i.uid).map (·.self)) ∧
      s.1.signature = ((p.env.defs i.uid).bind fun d => if p.env.signature d = [] then none else some (p.env.signature d)) ∧
      ∀ g ∈ p.files, ∀ docs, DocumentedAs g.decls i docs → s.1.documentation = docs := by
  obtain ⟨md, ps, docs, es, rfl, _, hps, _, hdocs, hes⟩ := h
  rw [List.forall₂_iff_get] at hdocs
  obtain ⟨hlen, hdocs⟩ := hdocs
  have hfile : D.fileOf i.pos = some f.file := ((ht.fileSet _ p hd.package) f hd.file).2 i hd.read
  obtain ⟨n, hn⟩ := List.mem_iff_getElem?.1 (show (p, f) ∈ ps.flatMap fun p => p.files.map fun f => (p, f) by
    simp only [List.mem_flatMap, List.mem_map]
    exact ⟨p, hps.symm.subset (List.mem_map.2 ⟨_, hd.package, rfl⟩), f, hd.file, rfl⟩)
  -- what a document says
  have doc : ∀ (k : Nat) e m, (ps.flatMap fun p => p.files.map fun f => (p, f))[k]? = some e → docs[k]? = some m →
      ∃ path occs syms, m = .document path occs syms ∧ DocumentOf D o project all e path occs syms := by
    intro k e m he hm
    obtain ⟨h1, e1⟩ := List.getElem?_eq_some_iff.1 he
    obtain ⟨h2, e2⟩ := List.getElem?_eq_some_iff.1 hm
    have := hdocs k h1 h2
    simp only [List.get_eq_getElem, e1, e2] at this
    exact this
  -- a description of the symbol is one of the entity
  have only : ∀ e ∈ ps.flatMap (fun p => p.files.map fun f => (p, f)), ∀ q s, D.fileOf q = some e.2.file → EntityInfo e.1 q s →
      s.symbol = p.env.fromDescriptors ds → e.1 = p ∧ q = i.pos ∧ e.2.file = f.file := by
    intro e he q s hq hs hsym
    have := EntityInfo.declared hs
    rw [hsym] at this
    obtain ⟨h1, rfl⟩ := Denoted.declaredAs hd ht hp hfields (files_at ht hps he).1 this
    rw [hfile] at hq
    exact ⟨h1, rfl, by simpa using hq.symm⟩
  have hkn : n < docs.length := by rw [← hlen]; exact (List.getElem?_eq_some_iff.1 hn).1
  obtain ⟨path, occs, syms, hm, hdoc⟩ := doc n (p, f) _ hn (List.getElem?_eq_getElem hkn)
  -- the descriptions in the document of the file
  obtain ⟨qs, entities, locals, hperm, hnd, hqs, hall, hl1, hl2⟩ := hdoc.descriptions
  have hno : ∀ (locals : List (SymInfo × List Str)) (e : Package × SourceFile), locals.length = (localIdents D all e.1 e.2).length →
      (∀ k i s, (localIdents D all e.1 e.2)[k]? = some i → locals[k]? = some s → LocalInfo D e.1 i k s.1 ∧ s.2 = []) →
      locals.filter (fun s => s.1.symbol = p.env.fromDescriptors ds) = [] := by
    intro locals e hl1 hl2
    rw [List.filter_eq_nil_iff]
    intro s hs
    obtain ⟨k, hk⟩ := List.mem_iff_getElem?.1 hs
    have hk' : k < (localIdents D all e.1 e.2).length := by rw [← hl1]; exact (List.getElem?_eq_some_iff.1 hk).1
    have := (hl2 k _ s (List.getElem?_eq_getElem hk') hk).1.symbol
    simp only [this, decide_eq_true_eq]
    exact local_not_global _ _ k
  have hmem : i.pos ∈ qs := (hqs i.pos).2 ⟨hfile, _, .inl ⟨i, ds, NamedEntity.declares hd.entity, rfl⟩⟩
  obtain ⟨k, hk⟩ := List.mem_iff_getElem?.1 hmem
  rw [List.forall₂_iff_get] at hall
  obtain ⟨hql, hall⟩ := hall
  have hall' : ∀ (k : Nat) q s, qs[k]? = some q → entities[k]? = some s → EntityInfo p q s.1 ∧ RelationshipsAt D o project all p q s.2 := by
    intro k q s hq hs
    obtain ⟨h1, e1⟩ := List.getElem?_eq_some_iff.1 hq
    obtain ⟨h2, e2⟩ := List.getElem?_eq_some_iff.1 hs
    have := hall k h1 h2
    simp only [List.get_eq_getElem, e1, e2] at this
    exact this
  have hke : k < entities.length := by rw [← hql]; exact (List.getElem?_eq_some_iff.1 hk).1
  have hent := (hall' k _ _ hk (List.getElem?_eq_getElem hke)).1
  have hinfo : entities[k].1.symbol = p.env.fromDescriptors ds ∧ entities[k].1.displayName = i.name ∧
      entities[k].1.kind = kindForObject ((p.env.defs i.uid).map (·.self)) ∧
      entities[k].1.signature = ((p.env.defs i.uid).bind fun d => if p.env.signature d = [] then none else some (p.env.signature d)) ∧
      ∀ g ∈ p.files, ∀ docs, DocumentedAs g.decls i docs → entities[k].1.documentation = docs := by
    cases hent with
    | entity i' ds' h' h1 h2 h3 h4 h5 =>
      obtain ⟨rfl, rfl⟩ := C99_one_entity hp p hd.package _ i' i ds' ds h' (NamedEntity.declares hd.entity)
      exact ⟨h1, h2, h3, h4, h5⟩
    | clause f' hfirst hpos _ =>
      exact absurd (hpos ▸ NamedEntity.declares hd.entity)
        (PackageDeclares.not_clause (distinct_package hp.places hd.package) (List.mem_map.2 ⟨f', List.mem_of_head? hfirst, rfl⟩))
  have hfilter : syms.filter (fun s => s.1.symbol = p.env.fromDescriptors ds) = [entities[k]] := by
    have h1 := hperm.filter (fun s => decide (s.1.symbol = p.env.fromDescriptors ds))
    rw [List.filter_append, hno locals (p, f) hl1 hl2, List.append_nil] at h1
    have h2 : entities.filter (fun s => s.1.symbol = p.env.fromDescriptors ds) = [entities[k]] := by
      rw [filter_eq_flatMap]
      refine flatMap_at (List.getElem?_eq_getElem hke) (by simp [hinfo.1]) fun k' s hs hne => ?_
      have hk'' : k' < qs.length := by rw [hql]; exact (List.getElem?_eq_some_iff.1 hs).1
      have hi := (hall' k' _ s (List.getElem?_eq_getElem hk'') hs).1
      by_contra hc
      have hsym : s.1.symbol = p.env.fromDescriptors ds := by
        by_contra hc'
        simp [hc'] at hc
      have := (only (p, f) (List.mem_of_getElem? hn) _ _ ((hqs _).1 (List.getElem_mem hk'')).1 hi hsym).2.1
      exact hne (nodup_index hnd (by rw [List.getElem?_eq_getElem hk'', this]) hk)
    rw [h2] at h1
    exact List.perm_singleton.1 h1
  refine ⟨entities[k], ?_, hinfo.2⟩
  -- the other documents
  have hrest : (descriptionsOf (.metadata md :: (docs ++ es))).filter (fun s => s.1.symbol = p.env.fromDescriptors ds) =
      docs.flatMap fun m => (descriptionsIn m).filter (fun s => s.1.symbol = p.env.fromDescriptors ds) := by
    have he : es.flatMap descriptionsIn = [] := by
      rw [List.flatMap_eq_nil_iff]
      intro m hm
      obtain ⟨_, _, rfl, _⟩ := hes.real m hm
      rfl
    simp only [descriptionsOf, descriptionsIn, List.flatMap_cons, List.flatMap_append, he, List.append_nil, List.nil_append, List.filter_flatMap]
  rw [hrest]
  refine flatMap_at (List.getElem?_eq_getElem hkn) (by rw [hm]; exact hfilter) fun k' m' hm' hne => ?_
  have hk' : k' < (ps.flatMap fun p => p.files.map fun f => (p, f)).length := by
    have := (List.getElem?_eq_some_iff.1 hm').1
    simp only [hlen]
    exact this
  obtain ⟨path', occs', syms', rfl, hdoc'⟩ := doc k' _ m' (List.getElem?_eq_getElem hk') hm'
  obtain ⟨qs', entities', locals', hperm', hnd', hqs', hall', hl1', hl2'⟩ := hdoc'.descriptions
  have h1 := hperm'.filter (fun s => decide (s.1.symbol = p.env.fromDescriptors ds))
  rw [List.filter_append, hno locals' _ hl1' hl2', List.append_nil] at h1
  have h2 : entities'.filter (fun s => s.1.symbol = p.env.fromDescriptors ds) = [] := by
    rw [List.filter_eq_nil_iff]
    intro s hs
    obtain ⟨j, hj, ej⟩ := List.mem_iff_getElem.1 hs
    rw [List.forall₂_iff_get] at hall'
    have hjq : j < qs'.length := by rw [hall'.1]; exact hj
    have hi := (hall'.2 j hjq hj).1
    simp only [List.get_eq_getElem, ej] at hi
    simp only [decide_eq_true_eq]
    intro hsym
    have := (only _ (List.getElem_mem hk') _ _ ((hqs' _).1 (List.getElem_mem hjq)).1 hi hsym).2.2
    refine hne (nodup_index (files_nodup ht hps) (x := f.file) ?_ ?_)
    · rw [List.getElem?_map, List.getElem?_eq_getElem hk', Option.map_some, this]
    · rw [List.getElem?_map, hn, Option.map_some]
  rw [h2] at h1
  exact List.perm_nil.1 h1

/-- **C100**: and exactly one definition, at the identifier that declares the entity. -/
theorem C100_one_definition (ht : TypedProject D project all objs) (hp : ParsedProject project)
    (hfields : ∀ p, (p.path, p) ∈ all → fieldOk p.env.module.path ∧ fieldOk p.env.module.version) (ms : List Message) (h : IndexOf D o project all ms)
    (hd : Denoted D project all p f i ds) (hdef : (p.env.defs i.uid).isSome) (hsw : ¬ SwitchIdent p i) :
    ∃ x, (definitionsOf ms).filter (fun x => x.symbol = p.env.fromDescriptors ds) = [x] ∧ x.range = identSpan (sourceEnv D p) i := by
  obtain ⟨md, ps, docs, es, rfl, _, hps, _, hdocs, hes⟩ := h
  rw [List.forall₂_iff_get] at hdocs
  obtain ⟨hlen, hdocs⟩ := hdocs
  have hfile : D.fileOf i.pos = some f.file := ((ht.fileSet _ p hd.package) f hd.file).2 i hd.read
  obtain ⟨n, hn⟩ := List.mem_iff_getElem?.1 (show (p, f) ∈ ps.flatMap fun p => p.files.map fun f => (p, f) by
    simp only [List.mem_flatMap, List.mem_map]
    exact ⟨p, hps.symm.subset (List.mem_map.2 ⟨_, hd.package, rfl⟩), f, hd.file, rfl⟩)
  have doc : ∀ (k : Nat) e m, (ps.flatMap fun p => p.files.map fun f => (p, f))[k]? = some e → docs[k]? = some m →
      ∃ path occs syms, m = .document path occs syms ∧ DocumentOf D o project all e path occs syms := by
    intro k e m he hm
    obtain ⟨h1, e1⟩ := List.getElem?_eq_some_iff.1 he
    obtain ⟨h2, e2⟩ := List.getElem?_eq_some_iff.1 hm
    have := hdocs k h1 h2
    simp only [List.get_eq_getElem, e1, e2] at this
    exact this
  have hname : i.name ≠ go!"_" := by cases hd.entity <;> assumption
  have hlevel : PackageLevel p i := ⟨i, ds, NamedEntity.declares hd.entity⟩
  -- an identifier with a definition of the symbol is the identifier
  have only : ∀ e ∈ ps.flatMap (fun p => p.files.map fun f => (p, f)), ∀ syms j decl os, j ∈ identsOf (fileEventsOf D all e.1 e.2) →
      IdentDefs D all e syms j decl os → os.filter (fun x => x.isDef && decide (x.symbol = p.env.fromDescriptors ds)) ≠ [] →
      j.pos = i.pos ∧ e.2.file = f.file := by
    classical
    intro e he syms j decl os hj hos hne
    by_cases h1 : DeclaringIdent e.1 j
    · by_cases h2 : SwitchIdent e.1 j
      · obtain ⟨k, _, rfl⟩ := hos.switch h1.1 h2
        simp [PkgEnv.fromDescriptors, local_not_global] at hne
      · by_cases h3 : LocalIdent e.1 j
        · obtain ⟨k, _, rfl⟩ := hos.toLocal h3 h2
          simp [PkgEnv.fromDescriptors, local_not_global] at hne
        · obtain ⟨s, _, hinfo, dep, _, rfl⟩ := hos.toEntity h1 h3
          have hsym : s.1.symbol = p.env.fromDescriptors ds := by
            by_contra hc
            simp [hc] at hne
          have hdecl := EntityInfo.declared hinfo
          rw [hsym] at hdecl
          obtain ⟨hpk, hf⟩ := files_at ht hps he
          obtain ⟨e1, e2⟩ := Denoted.declaredAs hd ht hp hfields hpk hdecl
          have hfj := ((ht.fileSet _ e.1 hpk) e.2 hf).2 j hj
          rw [e2, hfile] at hfj
          exact ⟨e2, by simpa using hfj.symm⟩
    · rw [hos.nothing h1] at hne
      simp at hne
  have clause : ∀ e ∈ ps.flatMap (fun p => p.files.map fun f => (p, f)), packageSymbol e.1 ≠ p.env.fromDescriptors ds := by
    intro e he hc
    exact (C100_apart ht hfields p e.1 hd.package (ht.sub _ _ (files_at ht hps he).1) i ds hd.entity).1 hc.symm
  -- the definitions of a document, event by event
  have parts_of : ∀ e ∈ ps.flatMap (fun p => p.files.map fun f => (p, f)), ∀ syms occs, DocumentOccurrences D project all e syms occs →
      ∃ parts : List (List Occurrence × List Occurrence),
        occs.filter (fun x => x.isDef && decide (x.symbol = p.env.fromDescriptors ds)) =
          parts.flatMap (fun x => x.1.filter (fun x => x.isDef && decide (x.symbol = p.env.fromDescriptors ds))) ∧
        parts.length = (fileEventsOf D all e.1 e.2).length ∧
        ∀ (k : Nat) ev x, (fileEventsOf D all e.1 e.2)[k]? = some ev → parts[k]? = some x →
          match ev with
          | .ident i decl => IdentDefs D all e syms i decl x.1
          | _ => x.1 = [] := by
    intro e he syms occs hoc
    obtain ⟨parts, rfl, hlen, hparts⟩ := hoc
    refine ⟨parts, ?_, hlen, ?_⟩
    · rw [List.filter_cons_of_neg (by simp [clause e he]), List.filter_flatMap]
      have key : ∀ x ∈ parts, (x.1 ++ x.2).filter (fun x => x.isDef && decide (x.symbol = p.env.fromDescriptors ds)) =
          x.1.filter (fun x => x.isDef && decide (x.symbol = p.env.fromDescriptors ds)) := by
        intro x hx
        obtain ⟨k, hk⟩ := List.mem_iff_getElem?.1 hx
        have hk' : k < (fileEventsOf D all e.1 e.2).length := by rw [← hlen]; exact (List.getElem?_eq_some_iff.1 hk).1
        have := refs_not_def (hparts k _ x (List.getElem?_eq_getElem hk') hk).1
        have hz : x.2.filter (fun x => x.isDef && decide (x.symbol = p.env.fromDescriptors ds)) = [] := by
          rw [List.filter_eq_nil_iff]
          intro y hy
          simp [this y hy]
        rw [List.filter_append, hz, List.append_nil]
      clear hparts hlen
      induction parts with
      | nil => rfl
      | cons x parts ih =>
        rw [List.flatMap_cons, List.flatMap_cons, key x (by simp), ih fun y hy => key y (by simp [hy])]
    · intro k ev x hev hx
      have := (hparts k ev x hev hx).2
      cases ev with
      | ident j decl => exact this.1
      | qualifier => exact this
      | imp => exact this
  have hkn : n < docs.length := by rw [← hlen]; exact (List.getElem?_eq_some_iff.1 hn).1
  obtain ⟨path, occs, syms, hm, hdoc⟩ := doc n (p, f) _ hn (List.getElem?_eq_getElem hkn)
  obtain ⟨parts, hfl, hpl, hparts⟩ := parts_of (p, f) (List.mem_of_getElem? hn) syms occs hdoc.occurrences
  obtain ⟨decl, hev⟩ := mem_identsOf.1 hd.read
  obtain ⟨k, hk⟩ := List.mem_iff_getElem?.1 hev
  have hkp : k < parts.length := by rw [hpl]; exact (List.getElem?_eq_some_iff.1 hk).1
  have hids : IdentDefs D all (p, f) syms i decl parts[k].1 := hparts k _ _ hk (List.getElem?_eq_getElem hkp)
  obtain ⟨s, _, hinfo, dep, _, hos⟩ := hids.toEntity ⟨hname, .inr hdef⟩ (fun hl => hl.2.elim hsw fun h => h.2 hlevel)
  have hsym : s.1.symbol = p.env.fromDescriptors ds := by
    cases hinfo with
    | entity i' ds' h' h1 =>
      obtain ⟨rfl, rfl⟩ := C99_one_entity hp p hd.package _ i' i ds' ds h' (NamedEntity.declares hd.entity)
      exact h1
    | clause f' hfirst hpos _ =>
      exact absurd (hpos ▸ NamedEntity.declares hd.entity)
        (PackageDeclares.not_clause (distinct_package hp.places hd.package) (List.mem_map.2 ⟨f', List.mem_of_head? hfirst, rfl⟩))
  refine ⟨⟨identSpan (sourceEnv D p) i, s.1.symbol, true, decl.map fun x => span (p.env.position x.1) (p.env.position x.2), dep⟩, ?_, rfl⟩
  have hrest : (definitionsOf (.metadata md :: (docs ++ es))).filter (fun x => x.symbol = p.env.fromDescriptors ds) =
      docs.flatMap fun m => (definitionsIn m).filter (fun x => x.symbol = p.env.fromDescriptors ds) := by
    have he : es.flatMap definitionsIn = [] := by
      rw [List.flatMap_eq_nil_iff]
      intro m hm
      obtain ⟨_, _, rfl, _⟩ := hes.real m hm
      rfl
    simp only [definitionsOf, List.flatMap_cons, List.flatMap_append, he, List.append_nil, definitionsIn, List.nil_append, List.filter_flatMap]
  have both : ∀ occs : List Occurrence, (occs.filter (·.isDef)).filter (fun x => x.symbol = p.env.fromDescriptors ds) =
      occs.filter (fun x => x.isDef && decide (x.symbol = p.env.fromDescriptors ds)) := by
    intro occs
    rw [List.filter_filter]
    congr 1
    funext x
    rw [Bool.and_comm]
  rw [hrest]
  refine flatMap_at (List.getElem?_eq_getElem hkn) ?_ fun k' m' hm' hne => ?_
  · rw [hm, definitionsIn, both, hfl]
    refine flatMap_at (List.getElem?_eq_getElem hkp) (by rw [hos]; simp [hsym]) fun k' x hx hne => ?_
    have hk' : k' < (fileEventsOf D all p f).length := by
      have := (List.getElem?_eq_some_iff.1 hx).1
      simp only [hpl] at this
      exact this
    have := hparts k' _ x (List.getElem?_eq_getElem hk') hx
    by_contra hc
    have hex : ∃ ev, (fileEventsOf D all p f)[k']? = some ev := ⟨_, List.getElem?_eq_getElem hk'⟩
    obtain ⟨ev, hev'⟩ := hex
    have := hparts k' ev x hev' hx
    cases ev with
    | ident j decl' =>
      have := (only (p, f) (List.mem_of_getElem? hn) syms j decl' x.1 (mem_identsOf.2 ⟨_, List.mem_of_getElem? hev'⟩) this hc).1
      exact hne (event_index ((ht.files _ p hd.package) f hd.file).apart hev' hk this)
    | qualifier => simp only at this; rw [this] at hc; simp at hc
    | imp => simp only at this; rw [this] at hc; simp at hc
  · have hk' : k' < (ps.flatMap fun p => p.files.map fun f => (p, f)).length := by
      have := (List.getElem?_eq_some_iff.1 hm').1
      simp only [hlen]
      exact this
    obtain ⟨e, he⟩ : ∃ e, (ps.flatMap fun p => p.files.map fun f => (p, f))[k']? = some e := ⟨_, List.getElem?_eq_getElem hk'⟩
    obtain ⟨path', occs', syms', rfl, hdoc'⟩ := doc k' e m' he hm'
    obtain ⟨parts', hfl', hpl', hparts'⟩ := parts_of e (List.mem_of_getElem? he) syms' occs' hdoc'.occurrences
    rw [definitionsIn, both, hfl', List.flatMap_eq_nil_iff]
    intro x hx
    obtain ⟨j, hj⟩ := List.mem_iff_getElem?.1 hx
    have hj' : j < (fileEventsOf D all e.1 e.2).length := by rw [← hpl']; exact (List.getElem?_eq_some_iff.1 hj).1
    obtain ⟨ev, hev'⟩ : ∃ ev, (fileEventsOf D all e.1 e.2)[j]? = some ev := ⟨_, List.getElem?_eq_getElem hj'⟩
    have := hparts' j ev x hev' hj
    by_contra hc
    cases ev with
    | ident j decl' =>
      have := (only e (List.mem_of_getElem? he) syms' j decl' x.1 (mem_identsOf.2 ⟨_, List.mem_of_getElem? hev'⟩) this hc).2
      refine hne (nodup_index (files_nodup ht hps) (x := f.file) ?_ ?_)
      · rw [List.getElem?_map, he, Option.map_some, this]
      · rw [List.getElem?_map, hn, Option.map_some]
    | qualifier => simp only at this; rw [this] at hc; simp at hc
    | imp => simp only at this; rw [this] at hc; simp at hc

/-- **C100**: no external symbol of the index is the symbol of an entity of the project. -/
theorem C100_not_external (ht : TypedProject D project all objs)
    (hfields : ∀ p, (p.path, p) ∈ all → fieldOk p.env.module.path ∧ fieldOk p.env.module.version) (ms : List Message) (h : IndexOf D o project all ms)
    (hd : Denoted D project all p f i ds) (rels : List Str) : .external (p.env.fromDescriptors ds) rels ∉ ms := by
  obtain ⟨md, ps, docs, es, rfl, _, hps, _, hdocs, hes⟩ := h
  intro hm
  rcases List.mem_cons.1 hm with hm | hm
  · simp at hm
  · rcases List.mem_append.1 hm with hm | hm
    · rw [List.forall₂_iff_get] at hdocs
      obtain ⟨k, hk, e⟩ := List.mem_iff_getElem.1 hm
      obtain ⟨_, _, _, h, _⟩ := hdocs.2 k (by rw [hdocs.1]; exact hk) hk
      simp [e] at h
    · obtain ⟨sym, rels', e, _, _, _, p', t, n, hdep, hsym, _⟩ := hes.real _ hm
      simp only [Message.external.injEq] at e
      rw [← e.1] at hsym
      exact (C100_apart ht hfields p p' hd.package hdep.package i ds hd.entity).2 hdep.outside _ hsym

/-- **C100** (whole run): after a successful run, the index has exactly one description and exactly one definition for each such entity, and its symbol is not
among the external symbols. -/
theorem C100_whole_run (ord : MapOrders) (w : Writer) (ht : TypedProject D project all objs) (hv : ValidMapOrders ord) (hn : NamedTypes D project all)
    (hdist : ∀ p, (p.path, p) ∈ project → DistinctIdents p) (horig : ∀ r ∈ objs, ∀ q, (entityOf r).cls ≠ .pkgName q) (hp : ParsedProject project)
    (hfields : ∀ p, (p.path, p) ∈ all → fieldOk p.env.module.path ∧ fieldOk p.env.module.version)
    (hok : (index D o ord w (.ok (project, all))).outcome = .ok)
    (hd : Denoted D project all p f i ds) (hdef : (p.env.defs i.uid).isSome) (hsw : ¬ SwitchIdent p i) :
    let ms := (index D o ord w (.ok (project, all))).messages
    let sym := p.env.fromDescriptors ds
    (∃ s, (descriptionsOf ms).filter (fun s => s.1.symbol = sym) = [s] ∧ s.1.displayName = i.name ∧
      s.1.kind = kindForObject ((p.env.defs i.uid).map (·.self)) ∧
      s.1.signature = ((p.env.defs i.uid).bind fun d => if p.env.signature d = [] then none else some (p.env.signature d)) ∧
      ∀ g ∈ p.files, ∀ docs, DocumentedAs g.decls i docs → s.1.documentation = docs) ∧
    (∃ x, (definitionsOf ms).filter (fun x => x.symbol = sym) = [x] ∧ x.range = identSpan (sourceEnv D p) i) ∧
    ∀ rels, .external sym rels ∉ ms := by
  have h := C87_index D o ord w project all objs ht hv hn hdist horig hok
  exact ⟨C100_one_description ht hp hfields _ h hd, C100_one_definition ht hp hfields _ h hd hdef hsw, C100_not_external ht hfields _ h hd⟩

end

end Verif
