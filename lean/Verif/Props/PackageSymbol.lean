import Verif.Props.CrossIndex
/-! # C58, C111: the symbol of a package in a whole index, and references to packages across indexes -/
namespace Verif
open Spec Index

theorem longer_append {o l p : List Descriptor} (h : ∃ d r, p = (o ++ l) ++ d :: r) : ∃ d r, p = o ++ d :: r := by
  obtain ⟨d, r, rfl⟩ := h
  cases l with
  | nil => exact ⟨d, r, by simp⟩
  | cons x xs => exact ⟨x, xs ++ d :: r, by simp⟩

theorem VarDeclares.longer {key : Node → Str} {sname : Nat → List Ident → Str} {o p : List Descriptor} {n : Node} {i : Ident} {q : Nat}
    (h : VarDeclares key sname o n i p q) : ∃ d r, p = o ++ d :: r := by
  induction h with
  | name => exact ⟨_, _, rfl⟩
  | inType _ _ _ _ ih => obtain ⟨d, r, rfl⟩ := ih; exact ⟨_, _, List.append_assoc _ _ _⟩
  | inValue _ _ _ _ ih => obtain ⟨d, r, rfl⟩ := ih; exact ⟨_, _, by rw [List.append_assoc]; rfl⟩
  | decl _ _ _ ih => exact longer_append ih
  | named => exact ⟨_, _, rfl⟩
  | embedded => exact ⟨_, _, rfl⟩
  | anon _ _ _ _ _ ih => obtain ⟨d, r, rfl⟩ := ih; exact ⟨_, _, List.append_assoc _ _ _⟩
  | descend _ _ _ ih => exact longer_append ih

/-- Nothing that a package declares has the path of the package alone. -/
theorem PackageDeclares.longer {env : PkgEnv} {files : List Node} {i : Ident} {ds : List Descriptor} {q : Nat} (h : PackageDeclares env files i ds q) :
    ∃ d r, ds = ⟨env.pkgPath, .nspace⟩ :: d :: r := by
  obtain ⟨name, decls, hf, h⟩ := h
  cases h with
  | typ h =>
    obtain ⟨tok, specs, doc, spec, hd, hs, h⟩ := h
    cases h with
    | name n tps typ d => exact ⟨_, _, rfl⟩
    | member hm =>
      obtain ⟨r, rfl, _⟩ := Member.extends hm
      exact ⟨_, _, rfl⟩
  | func hd h =>
    cases h with
    | @name _ _ _ _ _ _ _ r _ => cases r <;> exact ⟨_, _, rfl⟩
    | @result _ _ _ _ _ _ _ r _ _ _ => cases r <;> exact ⟨_, _, rfl⟩
  | var hd htok h =>
    obtain ⟨d, r, rfl⟩ := VarDeclares.longer h
    exact ⟨_, _, rfl⟩

section
variable {D : Deps} {o : Opts} {project all : GoMap Package} {objs : List Obj} {p : Package} {f : SourceFile}

/-- Whatever has the symbol of a package is the package. -/
theorem packageSymbol_only (ht : TypedProject D project all objs)
    (hfields : ∀ p, (p.path, p) ∈ all → fieldOk p.env.module.path ∧ fieldOk p.env.module.version) (hm : (p.path, p) ∈ project)
    {p' : Package} (hm' : (p'.path, p') ∈ project) {q : Nat} (h : DeclaredAs p' q (packageSymbol p)) :
    p' = p ∧ ∃ f, p.files.head? = some f ∧ f.name.pos = q := by
  obtain ⟨h1, h2⟩ := hfields p (ht.sub _ _ hm)
  obtain ⟨h1', h2'⟩ := hfields p' (ht.sub _ _ hm')
  rcases h with ⟨i, ds, h, e⟩ | ⟨f, hf, hq, e⟩
  · obtain ⟨d, r, rfl⟩ := PackageDeclares.longer h
    have := (C01_symbol_injective _ _ _ _ _ _ h1 h2 h1' h2' e).2.2
    simp at this
  · have := (C01_symbol_injective _ _ _ _ _ _ h1 h2 h1' h2' e).2.2
    simp only [List.cons.injEq, Descriptor.mk.injEq, and_true] at this
    have e1 := GoMap.get_of_mem ht.project_keyed.nodup hm
    have e2 := GoMap.get_of_mem ht.project_keyed.nodup hm'
    rw [← this, e1, Option.some.injEq] at e2
    subst e2
    exact ⟨rfl, f, hf, hq⟩

/-- **C58**, for the whole index: exactly one description in the whole index has the symbol of a package; it is made of the name and the documentation of
the package. -/
theorem C58_one_description (ht : TypedProject D project all objs) (hp : ParsedProject project)
    (hfields : ∀ p, (p.path, p) ∈ all → fieldOk p.env.module.path ∧ fieldOk p.env.module.version) (ms : List Message) (h : IndexOf D o project all ms)
    (hm : (p.path, p) ∈ project) (hf : p.files.head? = some f) :
    ∃ s, (descriptionsOf ms).filter (fun s => s.1.symbol = packageSymbol p) = [s] ∧
      s.1 = ⟨packageSymbol p, .package, p.name, findPackageDocs p, some (go!"package " ++ p.name)⟩ := by
  obtain ⟨md, ps, docs, es, rfl, _, hps, _, hdocs, hes⟩ := h
  rw [List.forall₂_iff_get] at hdocs
  obtain ⟨hlen, hdocs⟩ := hdocs
  have hfm : f ∈ p.files := List.mem_of_head? hf
  have hfile : D.fileOf f.name.pos = some f.file := ((ht.fileSet _ p hm) f hfm).1
  obtain ⟨n, hn⟩ := List.mem_iff_getElem?.1 (show (p, f) ∈ ps.flatMap fun p => p.files.map fun f => (p, f) by
    simp only [List.mem_flatMap, List.mem_map]
    exact ⟨p, hps.symm.subset (List.mem_map.2 ⟨_, hm, rfl⟩), f, hfm, rfl⟩)
  have doc : ∀ (k : Nat) e m, (ps.flatMap fun p => p.files.map fun f => (p, f))[k]? = some e → docs[k]? = some m →
      ∃ path occs syms, m = .document path occs syms ∧ DocumentOf D o project all e path occs syms := by
    intro k e m he hm
    obtain ⟨h1, e1⟩ := List.getElem?_eq_some_iff.1 he
    obtain ⟨h2, e2⟩ := List.getElem?_eq_some_iff.1 hm
    have := hdocs k h1 h2
    simp only [List.get_eq_getElem, e1, e2] at this
    exact this
  have only : ∀ e ∈ ps.flatMap (fun p => p.files.map fun f => (p, f)), ∀ q s, D.fileOf q = some e.2.file → EntityInfo e.1 q s →
      s.symbol = packageSymbol p → e.1 = p ∧ q = f.name.pos ∧ e.2.file = f.file := by
    intro e he q s hq hs hsym
    have := EntityInfo.declared hs
    rw [hsym] at this
    obtain ⟨h1, f', hf', rfl⟩ := packageSymbol_only ht hfields hm (files_at ht hps he).1 this
    rw [hf, Option.some.injEq] at hf'
    subst hf'
    rw [hfile] at hq
    exact ⟨h1, rfl, by simpa using hq.symm⟩
  have hkn : n < docs.length := by rw [← hlen]; exact (List.getElem?_eq_some_iff.1 hn).1
  obtain ⟨path, occs, syms, hmsg, hdoc⟩ := doc n (p, f) _ hn (List.getElem?_eq_getElem hkn)
  obtain ⟨qs, entities, locals, hperm, hnd, hqs, hall, hl1, hl2⟩ := hdoc.descriptions
  have hno : ∀ (locals : List (SymInfo × List Str)) (e : Package × SourceFile), locals.length = (localIdents D all e.1 e.2).length →
      (∀ k i s, (localIdents D all e.1 e.2)[k]? = some i → locals[k]? = some s → LocalInfo D e.1 i k s.1 ∧ s.2 = []) →
      locals.filter (fun s => s.1.symbol = packageSymbol p) = [] := by
    intro locals e hl1 hl2
    rw [List.filter_eq_nil_iff]
    intro s hs
    obtain ⟨k, hk⟩ := List.mem_iff_getElem?.1 hs
    have hk' : k < (localIdents D all e.1 e.2).length := by rw [← hl1]; exact (List.getElem?_eq_some_iff.1 hk).1
    have := (hl2 k _ s (List.getElem?_eq_getElem hk') hk).1.symbol
    simp only [this, decide_eq_true_eq]
    exact local_not_global _ _ k
  have hmem : f.name.pos ∈ qs := (hqs f.name.pos).2 ⟨hfile, _, .inr ⟨f, hf, rfl, rfl⟩⟩
  obtain ⟨k, hk⟩ := List.mem_iff_getElem?.1 hmem
  rw [List.forall₂_iff_get] at hall
  obtain ⟨hql, hall⟩ := hall
  have hall' : ∀ (k : Nat) q s, qs[k]? = some q → entities[k]? = some s → EntityInfo p q s.1 ∧ RelationshipsAt D o project all p q s.2 := by
    intro k q s hq hs
    obtain ⟨h1, e1⟩ := List.getElem?_eq_some_iff.1 hq
    obtain ⟨h2, e2⟩ := List.getElem?_eq_some_iff.1 hs
    have := hall k h1 h2
    simp only [List.get_eq_getElem, e1, e2] at this
    exact this
  have hke : k < entities.length := by rw [← hql]; exact (List.getElem?_eq_some_iff.1 hk).1
  have hent := (hall' k _ _ hk (List.getElem?_eq_getElem hke)).1
  have hinfo : entities[k].1 = ⟨packageSymbol p, .package, p.name, findPackageDocs p, some (go!"package " ++ p.name)⟩ := by
    cases hent with
    | entity i' ds' h' h1 h2 h3 h4 h5 =>
      exact absurd h' (PackageDeclares.not_clause (distinct_package hp.places hm) (List.mem_map.2 ⟨f, hfm, rfl⟩))
    | clause f' hfirst hpos h => exact h
  have hfilter : syms.filter (fun s => s.1.symbol = packageSymbol p) = [entities[k]] := by
    have h1 := hperm.filter (fun s => decide (s.1.symbol = packageSymbol p))
    rw [List.filter_append, hno locals (p, f) hl1 hl2, List.append_nil] at h1
    have h2 : entities.filter (fun s => s.1.symbol = packageSymbol p) = [entities[k]] := by
      rw [filter_eq_flatMap]
      refine flatMap_at (List.getElem?_eq_getElem hke) (by simp [hinfo]) fun k' s hs hne => ?_
      have hk'' : k' < qs.length := by rw [hql]; exact (List.getElem?_eq_some_iff.1 hs).1
      have hi := (hall' k' _ s (List.getElem?_eq_getElem hk'') hs).1
      by_contra hc
      have hsym : s.1.symbol = packageSymbol p := by
        by_contra hc'
        simp [hc'] at hc
      have := (only (p, f) (List.mem_of_getElem? hn) _ _ ((hqs _).1 (List.getElem_mem hk'')).1 hi hsym).2.1
      exact hne (nodup_index hnd (by rw [List.getElem?_eq_getElem hk'', this]) hk)
    rw [h2] at h1
    exact List.perm_singleton.1 h1
  refine ⟨entities[k], ?_, hinfo⟩
  have hrest : (descriptionsOf (.metadata md :: (docs ++ es))).filter (fun s => s.1.symbol = packageSymbol p) =
      docs.flatMap fun m => (descriptionsIn m).filter (fun s => s.1.symbol = packageSymbol p) := by
    have he : es.flatMap descriptionsIn = [] := by
      rw [List.flatMap_eq_nil_iff]
      intro m hm
      obtain ⟨_, _, rfl, _⟩ := hes.real m hm
      rfl
    simp only [descriptionsOf, descriptionsIn, List.flatMap_cons, List.flatMap_append, he, List.append_nil, List.nil_append, List.filter_flatMap]
  rw [hrest]
  refine flatMap_at (List.getElem?_eq_getElem hkn) (by rw [hmsg]; exact hfilter) fun k' m' hm' hne => ?_
  have hk' : k' < (ps.flatMap fun p => p.files.map fun f => (p, f)).length := by
    have := (List.getElem?_eq_some_iff.1 hm').1
    simp only [hlen]
    exact this
  obtain ⟨path', occs', syms', rfl, hdoc'⟩ := doc k' _ m' (List.getElem?_eq_getElem hk') hm'
  obtain ⟨qs', entities', locals', hperm', hnd', hqs', hall', hl1', hl2'⟩ := hdoc'.descriptions
  have h1 := hperm'.filter (fun s => decide (s.1.symbol = packageSymbol p))
  rw [List.filter_append, hno locals' _ hl1' hl2', List.append_nil] at h1
  have h2 : entities'.filter (fun s => s.1.symbol = packageSymbol p) = [] := by
    rw [List.filter_eq_nil_iff]
    intro s hs
    obtain ⟨j, hj, ej⟩ := List.mem_iff_getElem.1 hs
    rw [List.forall₂_iff_get] at hall'
    have hjq : j < qs'.length := by rw [hall'.1]; exact hj
    have hi := (hall'.2 j hjq hj).1
    simp only [List.get_eq_getElem, ej] at hi
    simp only [decide_eq_true_eq]
    intro hsym
    have := (only _ (List.getElem_mem hk') _ _ ((hqs' _).1 (List.getElem_mem hjq)).1 hi hsym).2.2
    refine hne (nodup_index (files_nodup ht hps) (x := f.file) ?_ ?_)
    · rw [List.getElem?_map, List.getElem?_eq_getElem hk', Option.map_some, this]
    · rw [List.getElem?_map, hn, Option.map_some]
  rw [h2] at h1
  exact List.perm_nil.1 h1

/-- Definitions in a document with the symbol of a package. -/
theorem clause_only (ht : TypedProject D project all objs)
    (hfields : ∀ p, (p.path, p) ∈ all → fieldOk p.env.module.path ∧ fieldOk p.env.module.version) (hm : (p.path, p) ∈ project)
    {e : Package × SourceFile} (hme : (e.1.path, e.1) ∈ project) (hfe : e.2 ∈ e.1.files) {path : Str} {occs : List Occurrence} {syms : List (SymInfo × List Str)}
    (hdoc : DocumentOf D o project all e path occs syms) :
    (occs.filter (·.isDef)).filter (fun x => x.symbol = packageSymbol p) = if e.1.path = p.path then [clauseDefinition p e.2] else [] := by
  classical
  obtain ⟨parts, rfl, hlen, hparts⟩ := hdoc.occurrences
  have hrest : ((parts.flatMap (fun x => x.1 ++ x.2)).filter (·.isDef)).filter (fun x => x.symbol = packageSymbol p) = [] := by
    rw [List.filter_filter, List.filter_eq_nil_iff]
    intro y hy
    simp only [Bool.and_eq_true, decide_eq_true_eq, not_and]
    intro hsym hdef
    obtain ⟨x, hx, hy⟩ := List.mem_flatMap.1 hy
    obtain ⟨k, hk⟩ := List.mem_iff_getElem?.1 hx
    have hk' : k < (fileEventsOf D all e.1 e.2).length := by rw [← hlen]; exact (List.getElem?_eq_some_iff.1 hk).1
    obtain ⟨ev, hev⟩ : ∃ ev, (fileEventsOf D all e.1 e.2)[k]? = some ev := ⟨_, List.getElem?_eq_getElem hk'⟩
    obtain ⟨hrefs, hdefs⟩ := hparts k ev x hev hk
    rcases List.mem_append.1 hy with hy | hy
    · cases ev with
      | qualifier => simp only at hdefs; rw [hdefs] at hy; simp at hy
      | imp => simp only at hdefs; rw [hdefs] at hy; simp at hy
      | ident j decl =>
        have hids : IdentDefs D all e syms j decl x.1 := hdefs.1
        by_cases h1 : DeclaringIdent e.1 j
        · by_cases h2 : SwitchIdent e.1 j
          · obtain ⟨k, _, hx1⟩ := hids.switch h1.1 h2
            rw [hx1, List.mem_singleton] at hy
            subst hy
            exact local_not_global _ _ _ hsym
          · by_cases h3 : LocalIdent e.1 j
            · obtain ⟨k, _, hx1⟩ := hids.toLocal h3 h2
              rw [hx1, List.mem_singleton] at hy
              subst hy
              exact local_not_global _ _ _ hsym
            · obtain ⟨s, _, hinfo, dep, _, hx1⟩ := hids.toEntity h1 h3
              rw [hx1, List.mem_singleton] at hy
              subst hy
              have hdecl := EntityInfo.declared hinfo
              simp only at hsym
              rw [hsym] at hdecl
              obtain ⟨rfl, f', hf', hq⟩ := packageSymbol_only ht hfields hm hme hdecl
              exact (ht.clauses _ e.1 hme) e.2 hfe f' (List.mem_of_head? hf') j (mem_identsOf.2 ⟨_, List.mem_of_getElem? hev⟩) hq.symm
        · rw [hids.nothing h1] at hy
          simp at hy
    · rw [refs_not_def hrefs y hy] at hdef
      cases hdef
  by_cases hpath : e.1.path = p.path
  · have hep : e.1 = p := by
      have e1 := GoMap.get_of_mem ht.project_keyed.nodup hm
      have e2 := GoMap.get_of_mem ht.project_keyed.nodup hme
      rw [hpath, e1, Option.some.injEq] at e2
      exact e2.symm
    rw [if_pos hpath, List.filter_cons_of_pos (by rfl), List.filter_cons_of_pos (by simp [hep]), hrest, hep]
    rfl
  · have hne : packageSymbol e.1 ≠ packageSymbol p := by
      intro hc
      obtain ⟨h1, h2⟩ := hfields p (ht.sub _ _ hm)
      obtain ⟨h1', h2'⟩ := hfields e.1 (ht.sub _ _ hme)
      have := (C01_symbol_injective _ _ _ _ _ _ h1' h2' h1 h2 hc).2.2
      simp only [List.cons.injEq, Descriptor.mk.injEq, and_true] at this
      exact hpath this
    rw [if_neg hpath, List.filter_cons_of_pos (by rfl), List.filter_cons_of_neg (by simpa using hne), hrest]

/-- **C58**, for the whole index: the definitions of the symbol of a package are those at the clauses of its files, one for each file. -/
theorem C58_definitions (ht : TypedProject D project all objs)
    (hfields : ∀ p, (p.path, p) ∈ all → fieldOk p.env.module.path ∧ fieldOk p.env.module.version) (ms : List Message) (h : IndexOf D o project all ms)
    (hm : (p.path, p) ∈ project) :
    (definitionsOf ms).filter (fun x => x.symbol = packageSymbol p) = p.files.map (clauseDefinition p) := by
  obtain ⟨md, ps, docs, es, rfl, _, hps, hsorted, hdocs, hes⟩ := h
  have he : es.flatMap definitionsIn = [] := by
    rw [List.flatMap_eq_nil_iff]
    intro m hm
    obtain ⟨_, _, rfl, _⟩ := hes.real m hm
    rfl
  have hrest : (definitionsOf (.metadata md :: (docs ++ es))).filter (fun x => x.symbol = packageSymbol p) =
      docs.flatMap fun m => (definitionsIn m).filter (fun x => x.symbol = packageSymbol p) := by
    simp only [definitionsOf, List.flatMap_cons, List.flatMap_append, he, List.append_nil, definitionsIn, List.nil_append, List.filter_flatMap]
  have hdocs' : ∀ (l : List (Package × SourceFile)) (docs : List Message), (∀ e ∈ l, (e.1.path, e.1) ∈ project ∧ e.2 ∈ e.1.files) →
      List.Forall₂ (fun e m => ∃ path occs syms, m = .document path occs syms ∧ DocumentOf D o project all e path occs syms) l docs →
      (docs.flatMap fun m => (definitionsIn m).filter (fun x => x.symbol = packageSymbol p)) =
        l.flatMap fun e => if e.1.path = p.path then [clauseDefinition p e.2] else [] := by
    intro l docs hl h
    induction h with
    | nil => rfl
    | cons hx _ ih =>
      obtain ⟨path, occs, syms, rfl, hdoc⟩ := hx
      obtain ⟨h1, h2⟩ := hl _ (List.mem_cons_self)
      rw [List.flatMap_cons, List.flatMap_cons, ih fun e he => hl e (by simp [he]), definitionsIn, clause_only ht hfields hm h1 h2 hdoc]
  rw [hrest, hdocs' _ _ (fun e he => files_at ht hps he) hdocs, List.flatMap_assoc]
  have key : ∀ q ∈ ps, ((q.files.map fun f => (q, f)).flatMap fun e => if e.1.path = p.path then [clauseDefinition p e.2] else []) =
      if q.path = p.path then q.files.map (clauseDefinition p) else [] := by
    intro q _
    rw [List.flatMap_map]
    by_cases hq : q.path = p.path
    · simp only [hq, if_true]
      exact (List.map_eq_flatMap ..).symm
    · simp [hq]
  have hnd : (ps.map (·.path)).Nodup := by
    rw [List.Nodup, List.pairwise_map]
    refine hsorted.imp ?_
    intro a b hab e
    rw [e, Str.lt_irrefl] at hab
    cases hab
  obtain ⟨a, b, rfl⟩ := List.append_of_mem (hps.symm.subset (List.mem_map.2 ⟨_, hm, rfl⟩))
  simp only [List.map_append, List.map_cons, List.nodup_append, List.nodup_cons, List.mem_map, List.mem_cons] at hnd
  obtain ⟨_, ⟨h2, _⟩, h3⟩ := hnd
  have hnil : ∀ l : List Package, (∀ q ∈ l, q ∈ a ++ p :: b) → (∀ q ∈ l, q.path ≠ p.path) →
      (l.flatMap fun q => (q.files.map fun f => (q, f)).flatMap fun e => if e.1.path = p.path then [clauseDefinition p e.2] else []) = [] := by
    intro l hl hne
    rw [List.flatMap_eq_nil_iff]
    intro q hq
    rw [key q (hl q hq), if_neg (hne q hq)]
  rw [List.flatMap_append, List.flatMap_cons, hnil a (fun q hq => by simp [hq]) (fun q hq e => h3 _ ⟨q, hq, rfl⟩ _ (.inl rfl) e),
    hnil b (fun q hq => by simp [hq]) (fun q hq e => h2 ⟨q, hq, e⟩), key p (by simp), if_pos rfl]
  simp

/-- **C58** (whole run): after a successful run, the symbol of a package of the project has exactly one description in the index, and one definition at the
clause of each of its files and nowhere else. -/
theorem C58_whole_index (ord : MapOrders) (w : Writer) (ht : TypedProject D project all objs) (hv : ValidMapOrders ord) (hn : NamedTypes D project all)
    (hdist : ∀ p, (p.path, p) ∈ project → DistinctIdents p) (horig : ∀ r ∈ objs, ∀ q, (entityOf r).cls ≠ .pkgName q) (hp : ParsedProject project)
    (hfields : ∀ p, (p.path, p) ∈ all → fieldOk p.env.module.path ∧ fieldOk p.env.module.version)
    (hok : (index D o ord w (.ok (project, all))).outcome = .ok) (hm : (p.path, p) ∈ project) (hf : p.files.head? = some f) :
    let ms := (index D o ord w (.ok (project, all))).messages
    (∃ s, (descriptionsOf ms).filter (fun s => s.1.symbol = packageSymbol p) = [s] ∧
      s.1 = ⟨packageSymbol p, .package, p.name, findPackageDocs p, some (go!"package " ++ p.name)⟩) ∧
    (definitionsOf ms).filter (fun x => x.symbol = packageSymbol p) = p.files.map (clauseDefinition p) := by
  have h := C87_index D o ord w project all objs ht hv hn hdist horig hok
  exact ⟨C58_one_description ht hp hfields _ h hm hf, C58_definitions ht hfields _ h hm⟩

/-- **C111**, for packages: where a file of the second index names a package (in an import, or before the dot of a qualified identifier) that is loaded there
in the same module version in which the first run indexed it, its document has a reference whose symbol leads to exactly one description in the first index
and to the clauses of the files of the package. -/
theorem C111_packages {D' : Deps} {project' all' : GoMap Package} {objs' : List Obj} (o' : Opts) (ord ord' : MapOrders) (w w' : Writer)
    (ht : TypedProject D project all objs) (hv : ValidMapOrders ord) (hn : NamedTypes D project all)
    (hdist : ∀ p, (p.path, p) ∈ project → DistinctIdents p) (horig : ∀ r ∈ objs, ∀ q, (entityOf r).cls ≠ .pkgName q) (hp : ParsedProject project)
    (hfields : ∀ p, (p.path, p) ∈ all → fieldOk p.env.module.path ∧ fieldOk p.env.module.version)
    (hok : (index D o ord w (.ok (project, all))).outcome = .ok) (hm : (p.path, p) ∈ project) (hf : p.files.head? = some f)
    (ht' : TypedProject D' project' all' objs') (hv' : ValidMapOrders ord') (horig' : ∀ r ∈ objs', ∀ q, (entityOf r).cls ≠ .pkgName q)
    (q : Package) (hq : (p.path, q) ∈ all') (hmod : q.env.module = p.env.module)
    (k : Nat) (e : Package × SourceFile) (he : (filesOf (sortedValues project'))[k]? = some e) (path : Str)
    (occs : List Occurrence) (syms : List (SymInfo × List Str))
    (hdoc : (index D' o' ord' w' (.ok (project', all'))).messages[k + 1]? = some (.document path occs syms))
    (ev : Event) (hev : ev ∈ fileEventsOf D' all' e.1 e.2) (range : List Int) (hnames : NamesPackage D' e.1 ev p.path range) :
    let ms := (index D o ord w (.ok (project, all))).messages
    ∃ x ∈ occs, x.isDef = false ∧ x.range = range ∧
      (∃ s, (descriptionsOf ms).filter (fun s => s.1.symbol = x.symbol) = [s] ∧ s.1.displayName = p.name) ∧
      (definitionsOf ms).filter (fun y => y.symbol = x.symbol) = p.files.map (clauseDefinition p) := by
  obtain ⟨⟨s, h1, h2⟩, h3⟩ := C58_whole_index (o := o) ord w ht hv hn hdist horig hp hfields hok hm hf
  obtain ⟨parts, hflat, hlen, hparts⟩ := C13_whole_run D' o' ord' w' project' all' objs' ht' hv' horig' k e he path occs syms hdoc
  obtain ⟨j, hj, hje⟩ := List.mem_iff_getElem.1 hev
  have hpart := hparts j ev _ (by rw [List.getElem?_eq_getElem hj, hje]) (List.getElem?_eq_getElem (hlen ▸ hj))
  have hsame : packageSymbol q = packageSymbol p := by
    unfold packageSymbol
    rw [hmod, ht'.all_keyed.path _ _ hq]
  have hx : (⟨range, packageSymbol p, false, none, false⟩ : Occurrence) ∈ parts[j]'(hlen ▸ hj) := by
    cases hnames with
    | qualifier i obj =>
      rw [hpart.1 q hq, hsame]
      exact List.mem_singleton.2 rfl
    | imported uid name pathPos h =>
      have h : parts[j]'(hlen ▸ hj) = _ := hpart.1 p.path q h hq
      rw [h, hsame]
      exact List.mem_append_right _ (List.mem_singleton.2 rfl)
  have hx : (⟨range, packageSymbol p, false, none, false⟩ : Occurrence) ∈ occs.filter (fun x => !x.isDef) := by
    rw [hflat, List.mem_flatten]
    exact ⟨_, List.getElem_mem (hlen ▸ hj), hx⟩
  exact ⟨_, (List.mem_filter.1 hx).1, rfl, rfl, ⟨s, h1, by rw [h2]⟩, h3⟩

end

end Verif
