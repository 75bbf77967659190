import Verif.Lemmas.GlobalEq
/-! # C69: two runs on the same input -/
namespace Verif
open Spec Index

theorem collected_same {o : Opts} {project all : GoMap Package} {g g' : Global} (hk : Keyed project) (h : Collected' o project all g)
    (h' : Collected' o project all g') : GEq g g' := by
  refine ⟨?_, fun k => by rw [h.packages, h'.packages], by rw [h.composer, h'.composer], by rw [h.skipped, h'.skipped]⟩
  intro k
  cases hp : project.get k with
  | none => rw [h.others k hp, h'.others k hp]
  | some p =>
    have hm := GoMap.mem_of_get hp
    have e := hk.path _ _ hm
    subst e
    obtain ⟨t, h1, h2⟩ := h.inProject p hm
    obtain ⟨t', h1', h2'⟩ := h'.inProject p hm
    rw [h1] at h1'
    simp only [Option.some.injEq] at h1'
    subst h1'
    rw [h2, h2']

theorem impl_same {ord ord' : MapOrders} (hv : ValidMapOrders ord) (hv' : ValidMapOrders ord') (p : Package) :
    SamePackage (Package.impl ord p) (Package.impl ord' p) := by
  unfold Package.impl
  cases hd : p.defs with
  | none => exact .refl
  | some ds => exact .mk ((hv.defs _ _).trans (hv'.defs _ _).symm)

theorem listing_same {ord ord' : MapOrders} (hv : ValidMapOrders ord) (hv' : ValidMapOrders ord') {l l' : List Package} (h : l.Perm l') :
    SameListing (l.map (Package.impl ord)) (l'.map (Package.impl ord')) := by
  constructor
  · intro q hq
    obtain ⟨p, hp, rfl⟩ := List.mem_map.1 hq
    exact ⟨_, List.mem_map.2 ⟨p, h.subset hp, rfl⟩, impl_same hv hv' p⟩
  · intro q hq
    obtain ⟨p, hp, rfl⟩ := List.mem_map.1 hq
    exact ⟨_, List.mem_map.2 ⟨p, h.symm.subset hp, rfl⟩, impl_same hv hv' p⟩

/-- No two types that a run describes share a symbol (see C31). -/
def DistinctTypes (D : Deps) (o : Opts) (ord : MapOrders) (project all : GoMap Package) : Prop :=
  ∀ docs g, indexVisitPackages o ord project all = some (docs, g) → ∀ b, SymbolsDistinct D.scopes g b
    (side ((ord.extractProject (project.map (·.2))).map (Package.impl ord)) ((ord.extractAll (all.map (·.2))).map (Package.impl ord)) b)

section
variable {D : Deps} {o : Opts} {ord ord' : MapOrders} {project all : GoMap Package} {objs : List Obj} {g g' : Global}

/-- The implementation pass of two runs. -/
theorem implementations_same (ht : TypedProject D project all objs) (hv : ValidMapOrders ord) (hv' : ValidMapOrders ord')
    (hg : Collected' o project all g) (hg' : Collected' o project all g')
    (hd : ∀ b, SymbolsDistinct D.scopes g b (side ((ord.extractProject (project.map (·.2))).map (Package.impl ord))
      ((ord.extractAll (all.map (·.2))).map (Package.impl ord)) b))
    {r r' : Global × Impl.Heap × List Message} (h : implementations D o ord project all g = some r)
    (h' : implementations D o ord' project all g' = some r') : (∀ ref, r.2.1 ref = r'.2.1 ref) ∧ r.2.2.Perm r'.2.2 := by
  unfold implementations at h h'
  by_cases hs : o.skipImplementations = true
  · rw [if_pos hs] at h h'
    simp only [Option.some.injEq] at h h'
    subst h; subst h'
    exact ⟨fun _ => rfl, List.Perm.refl _⟩
  · rw [if_neg hs] at h h'
    obtain ⟨x, hx, rfl⟩ := Option.map_eq_some_iff.1 h
    obtain ⟨x', hx', rfl⟩ := Option.map_eq_some_iff.1 h'
    obtain ⟨h1, h2⟩ := order_independent (collected_same ht.project_keyed hg hg') (consistent_of hg ht hv) (impl_sub ht hv)
      (impl_sub ht hv') hv.impls hv'.impls hd
      (listing_same hv hv' ((hv.extractProject _).trans (hv'.extractProject _).symm))
      (listing_same hv hv' ((hv.extractAll _).trans (hv'.extractAll _).symm)) (fun _ => rfl) hx hx'
    refine ⟨h1, ?_⟩
    have : x'.external.map (fun s => Message.external s.sym (x'.heap s.ref)) = x'.external.map (fun s => .external s.sym (x.heap s.ref)) := by
      apply List.map_congr_left
      intro s _
      rw [h1]
    simp only [this]
    exact h2.map _

theorem zip_map {α β γ : Type} (f : α → β) (k : α → γ) (l : List α) : (l.map f).zip (l.map k) = l.map (fun x => (f x, k x)) := by
  induction l with
  | nil => rfl
  | cons a l ih => simp [ih]

/-- The descriptions of a document with their relationships. -/
theorem document_pairs (env : FileEnv) (os : Obj → Str) (path : Str) (st : FState) (order : Table) (lorder : List (Nat × Local))
    (fileOf : Nat → Option Nat) (file : Nat) (heap : Impl.Heap) (pkg : Str) :
    ((toScipDocument env os path st order lorder fileOf file).symbols).zip
      (documentRelationships heap pkg order lorder fileOf file) =
    (order.filter (fun e => fileOf e.1 == some file)).map (fun e => (e.2, heap (.entry pkg e.1))) ++
      lorder.map (fun e => (localInfo env os e.2, [])) := by
  unfold toScipDocument documentRelationships Table.symbolsForFile
  simp only
  rw [List.zip_append (by simp), zip_map, zip_map]

/-- The document of a file in two runs. -/
theorem document_same (ht : TypedProject D project all objs) (hv : ValidMapOrders ord) (hv' : ValidMapOrders ord')
    (hg : Collected' o project all g) (hg' : Collected' o project all g') {heap heap' : Impl.Heap} (hh : ∀ ref, heap ref = heap' ref)
    {n n' : Nat} {e : Package × SourceFile} (hp : (e.1.path, e.1) ∈ project) {path path' : Str} {occs occs' : List Occurrence}
    {syms syms' : List (SymInfo × List Str)}
    (h : IsDocumentOf D o ord objs g heap n e (.document path occs syms))
    (h' : IsDocumentOf D o ord' objs g' heap' n' e (.document path' occs' syms')) :
    path = path' ∧ occs = occs' ∧ syms.Perm syms' := by
  obtain ⟨t, st, _, ht1, hvis, hm⟩ := h
  obtain ⟨t', st', _, ht2, hvis', hm'⟩ := h'
  rw [ht1] at ht2
  simp only [Option.some.injEq] at ht2
  subst ht2
  simp only [Message.document.injEq] at hm hm'
  obtain ⟨rfl, rfl, rfl⟩ := hm
  obtain ⟨rfl, rfl, rfl⟩ := hm'
  have hgg := collected_same ht.project_keyed hg hg'
  have henv : EnvSame (fileEnv D ord n e.1 t) (fileEnv D ord' n' e.1 t) := by
    refine ⟨rfl, rfl, rfl, rfl, rfl, (hv.implicits _ _).trans (hv'.implicits _ _).symm, ?_⟩
    intro x hx y hy he
    exact ht.implicits _ _ hp x ((hv.implicits _ _).subset hx) y ((hv.implicits _ _).subset hy) he
  have hev : fileEvents (fileEnv D ord n e.1 t) g e.2.decls = fileEvents (fileEnv D ord' n' e.1 t) g' e.2.decls := by
    rw [events_eq hg, events_eq hg']
  refine ⟨rfl, ?_, ?_⟩
  · rw [hvis.occs, hvis'.occs, hev, henv.occsFrom_same hgg]
  · rw [document_pairs, document_pairs]
    apply List.Perm.append
    · have : (fun x : Nat × SymInfo => (x.2, heap (.entry e.1.path x.1))) = (fun x => (x.2, heap' (.entry e.1.path x.1))) := by
        funext x; rw [hh]
      rw [this]
      exact ((((hv.table _ _).trans (hv'.table _ _).symm)).filter _).map _
    · have l1 : ∀ (l : List (Nat × Local)) (env : FileEnv), l.map (fun x => (localInfo env D.objectString x.2, ([] : List Str))) =
          (l.map (fun x => localInfo env D.objectString x.2)).map (fun i => (i, [])) := by intro l env; simp
      rw [l1, l1]
      apply List.Perm.map
      refine ((hv.locals _ _).map _).trans (List.Perm.trans ?_ ((hv'.locals _ _).map _).symm)
      rw [hvis.inv.locals, hvis'.inv.locals, hev, henv.locals_same]

end

/-- Documents are among the messages for the files. -/
theorem document_index (D : Deps) (o : Opts) (ord : MapOrders) (w : Writer) (project all : GoMap Package) (objs : List Obj)
    (ht : TypedProject D project all objs) (hv : ValidMapOrders ord) {i : Nat} {m : Message} (hd : isDocument m)
    (hi : (index D o ord w (.ok (project, all))).messages[i + 1]? = some m) : i < (filesOf (sortedValues project)).length := by
  rcases index_stages D o ord w (.ok (project, all)) with ⟨e, _, hr⟩ | ⟨hw, ⟨e, hl, _⟩ | ⟨pr, al, hl, ⟨hc, hr⟩ |
    ⟨docs, g, g', heap, externals, hvp, him, rd, hrd, hr⟩⟩⟩
  · rw [hr] at hi; simp at hi
  · simp at hl
  · rw [hr] at hi; simp at hi
  · simp only [Except.ok.injEq, Prod.mk.injEq] at hl
    obtain ⟨rfl, rfl⟩ := hl
    have hg := collected_global ht.project_keyed ht.all_keyed ht.sub hv.all hvp
    obtain ⟨ds, h1, _, h3, h4⟩ := writeDocuments_documents (heap := heap) hg ht hv w _ g'
      [.metadata (metadata D o)] (docs_of ht hv hvp) (implementations_asked hg ht hv him)
    rw [← hrd] at h1 h3
    rcases hr with ⟨ho, hr⟩ | ⟨ho, hr⟩
    · have hlen := h3 ho
      obtain ⟨_, ⟨_, _, _, _, h5⟩, _⟩ := writeDocuments_spec D ord w heap docs (filesOf (sortedValues project)) g' _ (single_ok hw)
      rw [← hrd] at h5
      obtain ⟨_, ⟨es, k2, k3, _⟩, _⟩ := writeExternals_spec w externals rd.messages (h5 ho).2
      rw [← hr, h1] at k2
      rw [k2] at hi
      simp only [List.cons_append, List.nil_append, List.getElem?_cons_succ] at hi
      by_contra hge
      rw [List.getElem?_append_right (by omega)] at hi
      have := externals_of him m (k3.subset (List.mem_of_getElem? hi))
      cases m <;> simp_all [isDocument, isExternal]
    · rw [hr, h1] at hi
      have hi' : ds[i]? = some m := by simpa using hi
      obtain ⟨e, he, _⟩ := h4 i m hi'
      exact (List.getElem?_eq_some_iff.1 he).1

/-- The message describes an external symbol. -/
def Spec.externalMessage : Message → Bool
  | .external _ _ => true
  | _ => false

/-- **C69.** Two runs on the same loaded program, with different orders of map iteration and different writers, write the same
metadata and, for every file that both have written, documents with the same path, the same occurrences in the same order, and the
same descriptions (with their relationships) up to order; if both succeed they write as many messages, and the same external symbols
up to order. -/
theorem C69_same_documents (D : Deps) (o : Opts) (ord ord' : MapOrders) (w w' : Writer) (project all : GoMap Package) (objs : List Obj)
    (ht : TypedProject D project all objs) (hv : ValidMapOrders ord) (hv' : ValidMapOrders ord')
    (hd : DistinctTypes D o ord project all) (r r' : Run) (hr : r = index D o ord w (.ok (project, all)))
    (hr' : r' = index D o ord' w' (.ok (project, all))) :
    r.messages[0]? = r'.messages[0]? ∧
    (∀ (i : Nat) (path path' : Str) (occs occs' : List Occurrence) (syms syms' : List (SymInfo × List Str)),
      r.messages[i]? = some (.document path occs syms) →
      r'.messages[i]? = some (.document path' occs' syms') → path = path' ∧ occs = occs' ∧ syms.Perm syms') ∧
    (r.outcome = .ok → r'.outcome = .ok → r.messages.length = r'.messages.length ∧
      (r.messages.filter externalMessage).Perm (r'.messages.filter externalMessage)) := by
  subst hr; subst hr'
  have hzero : ∀ ord w, (index D o ord w (.ok (project, all))).messages[0]? = some (.metadata (metadata D o)) := by
    intro ord w
    rcases index_stages D o ord w (.ok (project, all)) with ⟨e, _, hr⟩ | ⟨hw, ⟨e, hl, _⟩ | ⟨pr, al, hl, ⟨hc, hr⟩ |
      ⟨docs, g, g', heap, externals, hvp, him, rd, hrd, hr⟩⟩⟩
    · rw [hr]; rfl
    · simp at hl
    · rw [hr]; rfl
    · obtain ⟨_, ⟨ds, h2, _, _, h5⟩, _⟩ := writeDocuments_spec D ord w heap docs (filesOf (sortedValues pr)) g' _ (single_ok hw)
      rw [← hrd] at h2 h5
      rcases hr with ⟨ho, hr⟩ | ⟨ho, hr⟩
      · obtain ⟨_, ⟨es, k2, _⟩, _⟩ := writeExternals_spec w externals rd.messages (h5 ho).2
        rw [← hr] at k2
        rw [k2, h2]; simp
      · rw [hr, h2]; simp
  refine ⟨by rw [hzero, hzero], ?_, ?_⟩
  · intro i path path' occs occs' syms syms' h h'
    cases i with
    | zero => rw [hzero] at h; simp at h
    | succ i =>
      have hlt := document_index D o ord w project all objs ht hv (m := .document path occs syms) trivial h
      obtain ⟨docs, g, g₁, heap, ex, e, hvp, hg, him, he, hdoc⟩ := run_documents D o ord w project all objs ht hv h hlt
      obtain ⟨docs', g', g₁', heap', ex', e', hvp', hg', him', he', hdoc'⟩ := run_documents D o ord' w' project all objs ht hv' h' hlt
      rw [he] at he'
      simp only [Option.some.injEq] at he'
      subst he'
      have hp := (mem_sortedValues ht.project_keyed).1 (mem_filesOf.1 (List.mem_of_getElem? he)).1
      have hh := (implementations_same ht hv hv' hg hg' (hd docs g hvp) him him').1
      exact document_same ht hv hv' hg hg' hh hp hdoc hdoc'
  · intro ho ho'
    obtain ⟨pr, al, docs, g, g₁, heap, ds, ex, hl, hvp, him, hm, hpaths, hlen⟩ := C49_success_is_complete D o ord w _ ho
    simp only [Except.ok.injEq, Prod.mk.injEq] at hl
    obtain ⟨rfl, rfl⟩ := hl
    obtain ⟨pr, al, docs', g', g₁', heap', ds', ex', hl, hvp', him', hm', hpaths', hlen'⟩ := C49_success_is_complete D o ord' w' _ ho'
    simp only [Except.ok.injEq, Prod.mk.injEq] at hl
    obtain ⟨rfl, rfl⟩ := hl
    have hg := collected_global ht.project_keyed ht.all_keyed ht.sub hv.all hvp
    have hg' := collected_global ht.project_keyed ht.all_keyed ht.sub hv'.all hvp'
    have hperm := (implementations_same ht hv hv' hg hg' (hd docs g hvp) him him').2
    simp only at hperm
    have hdocs : ∀ (ds : List Message) (fs : List (Package × SourceFile)) (f : Package × SourceFile → Str), documentPaths ds = fs.map f →
        ds.length = fs.length → ds.filter externalMessage = [] := by
      intro ds fs f h1 h2
      have h3 : (documentPaths ds).length = ds.length := by rw [h1, h2, List.length_map]
      clear h1 h2
      rw [List.filter_eq_nil_iff]
      intro m hm he
      have h4 : ∀ l : List Message, (documentPaths l).length ≤ l.length := fun l => List.length_filterMap_le _ _
      obtain ⟨a, b, rfl⟩ := List.append_of_mem hm
      have h5 : documentPaths (a ++ m :: b) = documentPaths a ++ documentPaths b := by
        unfold documentPaths
        rw [List.filterMap_append, List.filterMap_cons]
        cases m <;> simp_all [externalMessage]
      rw [h5] at h3
      have ha := h4 a
      have hb := h4 b
      simp only [List.length_append, List.length_cons] at h3
      omega
    have hex : ∀ {ord : MapOrders} {g g₁ heap ex}, implementations D o ord project all g = some (g₁, heap, ex) → ex.filter externalMessage = ex := by
      intro ord g g₁ heap ex h
      rw [List.filter_eq_self]
      intro m hm
      have := externals_of h m hm
      cases m <;> simp_all [isExternal, externalMessage]
    rw [hm, hm']
    refine ⟨?_, ?_⟩
    · simp [hlen, hlen', hperm.length_eq]
    · rw [List.filter_cons_of_neg (by simp [externalMessage]), List.filter_cons_of_neg (by simp [externalMessage]), List.filter_append,
        List.filter_append, hdocs ds _ _ hpaths hlen, hdocs ds' _ _ hpaths' hlen', hex him, hex him']
      simpa using hperm

end Verif
