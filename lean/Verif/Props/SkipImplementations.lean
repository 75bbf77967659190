import Verif.Spec.SkipImplementations
import Verif.Props.EndToEnd
import Verif.Props.ProgramTypes
/-! # C93: what `--skip-implementations` leaves out -/
namespace Verif
open Spec Index Program

section
variable {D : Deps} {o o' : Index.Opts} {ord ord' : MapOrders} {project all : GoMap Package} {objs : List Obj} {g g' : Global}

theorem Index.Collected'.of_opts (h : Collected' o project all g) (hr : o'.moduleRoot = o.moduleRoot) (hver : o'.moduleVersion = o.moduleVersion) :
    Collected' o' project all g :=
  ⟨by rw [h.composer, hr, hver], h.skipped, h.packages, h.inProject, h.others⟩

theorem IsDocumentOf.of_opts {heap n e m} (h : IsDocumentOf D o ord objs g heap n e m) (hr : o'.moduleRoot = o.moduleRoot) :
    IsDocumentOf D o' ord objs g heap n e m := by
  unfold IsDocumentOf at *
  rw [hr]
  exact h

/-- The document of a file does not depend on relationships but for them. -/
theorem IsDocumentOf.without {heap : Impl.Heap} {n : Nat} {e : Package × SourceFile} {path : Str} {occs : List Occurrence}
    {syms : List (SymInfo × List Str)} (h : IsDocumentOf D o ord objs g heap n e (.document path occs syms)) :
    IsDocumentOf D o ord objs g (fun _ => []) n e (.document path occs (syms.map bare)) := by
  obtain ⟨t, st, h1, h2, h3, h4⟩ := h
  refine ⟨t, st, h1, h2, h3, ?_⟩
  simp only [Message.document.injEq] at h4 ⊢
  obtain ⟨rfl, rfl, rfl⟩ := h4
  refine ⟨rfl, rfl, ?_⟩
  rw [document_pairs, document_pairs, List.map_append, List.map_map, List.map_map]
  rfl

end

/-- **C93** on a loaded program: of two successful runs, of which the second skips implementations, the second writes what the first
writes without relationships and without external symbols. -/
theorem C93_index (D : Deps) (o o' : Index.Opts) (ord ord' : MapOrders) (w w' : Writer) (project all : GoMap Package) (objs : List Obj)
    (ht : TypedProject D project all objs) (hv : ValidMapOrders ord) (hv' : ValidMapOrders ord')
    (hr : o'.moduleRoot = o.moduleRoot) (hver : o'.moduleVersion = o.moduleVersion) (hs : o'.skipImplementations = true)
    (hok : (index D o ord w (.ok (project, all))).outcome = .ok) (hok' : (index D o' ord' w' (.ok (project, all))).outcome = .ok) :
    WithoutImplementations (index D o ord w (.ok (project, all))).messages (index D o' ord' w' (.ok (project, all))).messages := by
  obtain ⟨pr, al, docs, g, g₁, heap, ds, ex, hl, hvp, him, hm, hpaths, hlen⟩ := C49_success_is_complete D o ord w _ hok
  obtain ⟨pr', al', docs', g', g₁', heap', ds', ex', hl', hvp', him', hm', hpaths', hlen'⟩ := C49_success_is_complete D o' ord' w' _ hok'
  simp only [Except.ok.injEq, Prod.mk.injEq] at hl hl'
  obtain ⟨rfl, rfl⟩ := hl
  obtain ⟨rfl, rfl⟩ := hl'
  obtain ⟨rfl, rfl⟩ := implementations_skip hs him'
  have hd := isDocument_of_paths (by rw [hpaths, List.length_map, hlen])
  have hd' := isDocument_of_paths (by rw [hpaths', List.length_map, hlen'])
  rw [List.append_nil] at hm'
  refine ⟨_, _, ds, ds', ex, hm, hm', ?_, ?_, externals_of him⟩
  · unfold SameButArguments metadata
    rw [hr]
  rw [List.forall₂_iff_get]
  refine ⟨by rw [hlen, hlen'], ?_⟩
  intro i hi hi'
  have g1 : (index D o ord w (.ok (project, all))).messages[i + 1]? = some ds[i] := by
    rw [hm, List.getElem?_cons_succ, List.getElem?_append_left hi, List.getElem?_eq_getElem hi]
  have g2 : (index D o' ord' w' (.ok (project, all))).messages[i + 1]? = some ds'[i] := by
    rw [hm', List.getElem?_cons_succ, List.getElem?_eq_getElem hi']
  have k1 := hd _ (List.getElem_mem hi)
  have k2 := hd' _ (List.getElem_mem hi')
  show DocumentWithout ds[i] ds'[i]
  cases e1 : ds[i] with
  | metadata => rw [e1] at k1; exact k1.elim
  | external => rw [e1] at k1; exact k1.elim
  | document p x y =>
    cases e2 : ds'[i] with
    | metadata => rw [e2] at k2; exact k2.elim
    | external => rw [e2] at k2; exact k2.elim
    | document p' x' y' =>
      rw [e1] at g1
      rw [e2] at g2
      have hlt : i < (filesOf (sortedValues project)).length := by rw [← hlen]; exact hi
      obtain ⟨_, a, _, hp1, _, e, hvp1, hg1, _, he, hdoc⟩ := run_documents D o ord w project all objs ht hv g1 hlt
      obtain ⟨_, a', _, hp1', _, e', hvp1', hg1', him1, he', hdoc'⟩ := run_documents D o' ord' w' project all objs ht hv' g2 hlt
      rw [he] at he'
      simp only [Option.some.injEq] at he'
      subst he'
      obtain ⟨rfl, rfl⟩ := implementations_skip hs him1
      have hp := (mem_sortedValues ht.project_keyed).1 (mem_filesOf.1 (List.mem_of_getElem? he)).1
      obtain ⟨q1, q2, q3⟩ := document_same ht hv hv' hg1 (hg1'.of_opts hr.symm hver.symm) (fun _ => rfl) hp hdoc.without (hdoc'.of_opts hr.symm)
      exact ⟨q1.symm, q2.symm, q3.symm⟩

/-- **C93.** Run the whole program twice on the same packages, the second time with `--skip-implementations` (and perhaps other recorded
arguments), with any orders of iteration.  If no write fails and no go.mod file is broken then both runs succeed, and the second writes
exactly what the first writes without relationships and without external symbols. -/
theorem C93_program (D : Deps) (answer : Query → Except Str Delivered) (env : Loader.Env) (order order' : Nat → Nat → List Nat)
    (fuel fuel' : Nat) (ord ord' : MapOrders) (o : Cmd.IndexOpts) (arguments : List Str) (w w' : Writer) (d : Delivered) (objs : List Obj)
    (hg : GoProgram d answer order o) (hg' : GoProgram d answer order' o) (ha : AlikeVariants d) (ht : TypedProgram d D objs)
    (hs : SignedProgram d D) (hv : ValidMapOrders ord) (hv' : ValidMapOrders ord')
    (hw : ∀ a m, w a m = none) (hw' : ∀ a m, w' a m = none) (hb : ∀ f, env.readMod f ≠ .broken)
    (r r' : Run) (hr : indexing D answer env order fuel ord o w = some r)
    (hr' : indexing D answer env order' fuel' ord' { o with skipImplementations := true, arguments := arguments } w' = some r') :
    r.outcome = .ok ∧ r'.outcome = .ok ∧ WithoutImplementations r.messages r'.messages := by
  have hg'' : GoProgram d answer order' { o with skipImplementations := true, arguments := arguments } :=
    ⟨hg'.answer, hg'.order, hg'.paths, hg'.variants⟩
  have hok := (C82_never_crashes D answer env order fuel ord o w d objs hg ht hs hv r hr).2 hw hb
  have hok' := (C82_never_crashes D answer env order' fuel' ord' _ w' d objs hg'' ht hs hv' r' hr').2 hw' hb
  refine ⟨hok, hok', ?_⟩
  obtain ⟨l, hl, rfl⟩ := indexing_ok hg hr hok
  obtain ⟨l', hl', rfl⟩ := indexing_ok hg'' hr' hok'
  have hl'' : LoadOk d env o order' fuel' l' := ⟨hl'.valid, hl'.noStd, hl'.variants, hl'.load⟩
  obtain ⟨hp, hal⟩ := same_loaded hl hl'' ha
  have ht1 := hl.typed ht
  have ht2 := hl''.typed ht
  have e := index_perm D (indexOpts { o with skipImplementations := true, arguments := arguments }) ord' w' (all := allOf d o l)
    (all' := allOf d o l') ht1.project_keyed ht2.project_keyed hp
  change (index D _ ord' w' (.ok (projectOf d o l', allOf d o l'))).outcome = .ok at hok'
  show WithoutImplementations _ (index D _ ord' w' (.ok (projectOf d o l', allOf d o l'))).messages
  rw [e] at hok' ⊢
  exact C93_index D (indexOpts o) _ ord _ w w' _ _ objs ht1 hv (ordersFor_valid hv' hp hal) rfl rfl rfl hok hok'

end Verif
