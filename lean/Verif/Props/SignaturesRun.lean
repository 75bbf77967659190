import Verif.Props.CommentsRun
import Verif.Props.Signatures
/-! # Whole runs: the signatures in the documents (C79, C80) -/
namespace Verif
open Verif.Spec Index Ts Ts.Spec Sign Sign.Spec
set_option autoImplicit false

section
variable {D : Deps} {o : Opts} {ord : MapOrders} {w : Writer} {project all : GoMap Package} {objs : List Obj} {g : Global}

/-- The description of a declared identifier in the document of its file. -/
theorem described_in_run (ht : TypedProject D project all objs) (hv : ValidMapOrders ord) {k : Nat} {e : Package × SourceFile}
    (he : (filesOf (sortedValues project))[k]? = some e) {path : Str} {occs : List Occurrence} {syms : List (SymInfo × List Str)}
    (hm : (index D o ord w (.ok (project, all))).messages[k + 1]? = some (.document path occs syms)) (hn : DistinctIdents e.1)
    {i : Ident} (hi : i ∈ identsOf (fileEventsOf D all e.1 e.2)) {ds : List Descriptor} (hd : OnlyDeclares e.1 i ds) :
    ∃ s ∈ syms, ∃ par, s.1 = newSymInfo e.1.env (e.1.env.fromDescriptors ds) par i := by
  obtain ⟨docs', g, g', heap, ex, hvp, hg, him, t, st, hl, htab, hvis, hmsg⟩ := run_document ht hv he hm
  simp only [Message.document.injEq] at hmsg
  obtain ⟨_, rfl, rfl⟩ := hmsg
  have hE := List.mem_of_getElem? he
  obtain ⟨hp, hf, _⟩ := mem_project_files ht hE
  obtain ⟨info, par, hinfo, heq, _⟩ := table_entry ht hE hn htab hi hd
  have hmem : info ∈ (((toScipDocument (fileEnv D ord (k + 1) e.1 t) D.objectString ((Filepath.rel o.moduleRoot e.2.fileName).getD []) st
      (ord.table (k + 1) t) (ord.locals (k + 1) st.locals) D.fileOf e.2.file).symbols).zip
      (documentRelationships heap e.1.path (ord.table (k + 1) t) (ord.locals (k + 1) st.locals) D.fileOf e.2.file)).map (·.1) := by
    rw [document_symbols]
    refine List.mem_append_left _ (List.mem_map.2 ⟨(i.pos, info), List.mem_filter.2 ⟨?_, ?_⟩, rfl⟩)
    · apply (hv.table _ _).mem_iff.2
      unfold Table.get at hinfo
      obtain ⟨l₁, l₂, h, _⟩ := List.lookup_eq_some_iff.1 hinfo
      rw [h]; simp
    · simp [(ht.fileSet _ _ hp _ hf).2 i hi]
  obtain ⟨z, hz, rfl⟩ := List.mem_map.1 hmem
  exact ⟨z, hz, par, heq⟩

open Classical in
/-- The local declarations of a file, identifier by identifier. -/
theorem localDecls_idents (ht : TypedProject D project all objs) (hv : ValidMapOrders ord) {e : Package × SourceFile}
    (he : e ∈ filesOf (sortedValues project)) {n : Nat} {t : Table} (htab : tableFor e.1 (packageSymbol e.1) = some t) (es : List Event)
    (hsub : ∀ i ∈ identsOf es, i ∈ identsOf (fileEventsOf D all e.1 e.2)) :
    (localDecls (fileEnv D ord n e.1 t) es).map some =
      ((identsOf es).filter (fun i => decide (LocalIdent e.1 i))).map (fun i => localDecl (fileEnv D ord n e.1 t) (.ident i none)) := by
  induction es with
  | nil => rfl
  | cons ev es ih =>
    cases ev with
    | qualifier j x q => exact ih (fun i hi => hsub i hi)
    | imp uid name pp => exact ih (fun i hi => hsub i hi)
    | ident j decl =>
      have ih := ih (fun i hi => hsub i (by rw [identsOf_cons_ident]; exact List.mem_cons_of_mem _ hi))
      have hdd : localDecl (fileEnv D ord n e.1 t) (.ident j decl) = localDecl (fileEnv D ord n e.1 t) (.ident j none) := rfl
      obtain ⟨h1, _⟩ := localDecl_iff ht hv he (n := n) htab (hsub j (by rw [identsOf_cons_ident]; simp)) none
      rw [identsOf_cons_ident, List.filter_cons]
      unfold localDecls at ih ⊢
      rw [List.filterMap_cons, hdd]
      cases hd : localDecl (fileEnv D ord n e.1 t) (.ident j none) with
      | none =>
        rw [hd] at h1
        have : ¬ LocalIdent e.1 j := fun h => by simpa using h1.2 h
        simp only [this, decide_false, Bool.false_eq_true, if_false]
        exact ih
      | some d =>
        rw [hd] at h1
        have : LocalIdent e.1 j := h1.1 rfl
        simp only [this, decide_true, if_true, List.map_cons, hd]
        rw [ih]

end

/-- **C79** (whole run, partial like C79_determines_partial): every entity that the type checker knows and that a file of the project
declares is described with a signature; the signatures of two of them are equal exactly if the entities are shown alike. -/
theorem C79_whole_run_partial (D : Deps) (o : Opts) (ord : MapOrders) (w : Writer) (project all : GoMap Package) (objs : List Obj)
    (ht : TypedProject D project all objs) (hv : ValidMapOrders ord) (a b : Nat) (e₁ e₂ : Package × SourceFile)
    (he₁ : (filesOf (sortedValues project))[a]? = some e₁) (he₂ : (filesOf (sortedValues project))[b]? = some e₂)
    (path₁ path₂ : Str) (occs₁ occs₂ : List Occurrence) (syms₁ syms₂ : List (SymInfo × List Str))
    (hm₁ : (index D o ord w (.ok (project, all))).messages[a + 1]? = some (.document path₁ occs₁ syms₁))
    (hm₂ : (index D o ord w (.ok (project, all))).messages[b + 1]? = some (.document path₂ occs₂ syms₂))
    (hn₁ : DistinctIdents e₁.1) (hn₂ : DistinctIdents e₂.1)
    (gofmt : Str → Option Str) (quote : Str → Str) (unquote : Str → Option Str) (hq : Quotes quote unquote) (view : Obj → View)
    (hs₁ : e₁.1.env.signature = fun o => typeStringForObject gofmt quote unquote (view o))
    (hs₂ : e₂.1.env.signature = fun o => typeStringForObject gofmt quote unquote (view o))
    (i₁ i₂ : Ident) (hi₁ : i₁ ∈ identsOf (fileEventsOf D all e₁.1 e₁.2)) (hi₂ : i₂ ∈ identsOf (fileEventsOf D all e₂.1 e₂.2))
    (ds₁ ds₂ : List Descriptor) (hd₁ : OnlyDeclares e₁.1 i₁ ds₁) (hd₂ : OnlyDeclares e₂.1 i₂ ds₂)
    (d₁ d₂ : Obj) (ho₁ : e₁.1.env.defs i₁.uid = some d₁) (ho₂ : e₂.1.env.defs i₂.uid = some d₂) (own : List Str) (x₁ x₂ : Entity)
    (v₁ : Describes (inPackage (view d₁).pkg) (view d₁) x₁) (v₂ : Describes (inPackage (view d₂).pkg) (view d₂) x₂)
    (w₁ : WellFormedEntity own x₁) (w₂ : WellFormedEntity own x₂) (l₁ : OneLine x₁) (l₂ : OneLine x₂) :
    ∃ s₁ ∈ syms₁, ∃ s₂ ∈ syms₂, ∃ t₁ t₂, s₁.1.symbol = e₁.1.env.fromDescriptors ds₁ ∧ s₂.1.symbol = e₂.1.env.fromDescriptors ds₂ ∧
      s₁.1.signature = some t₁ ∧ s₂.1.signature = some t₂ ∧ (t₁ = t₂ ↔ x₁.shown = x₂.shown) := by
  obtain ⟨s₁, h₁, p₁, k₁⟩ := described_in_run ht hv he₁ hm₁ hn₁ hi₁ hd₁
  obtain ⟨s₂, h₂, p₂, k₂⟩ := described_in_run ht hv he₂ hm₂ hn₂ hi₂ hd₂
  refine ⟨s₁, h₁, s₂, h₂, _, _, by rw [k₁]; rfl, by rw [k₂]; rfl, ?_, ?_, C79_determines_partial gofmt quote unquote hq own _ _ _ _ v₁ v₂ w₁ w₂ l₁ l₂⟩
  · rw [k₁, C79_recorded gofmt quote unquote view _ hs₁ _ _ _ _ ho₁]
  · rw [k₂, C79_recorded gofmt quote unquote view _ hs₂ _ _ _ _ ho₂]

/-- **C80** (whole run): the `k`-th local declaration of a file is described exactly once in the document of the file, with the name, the
kind and the signature of the declared object (C80_determines says what the signature determines), and without signature if it is the
variable of a type switch. -/
theorem C80_whole_run (D : Deps) (o : Opts) (ord : MapOrders) (w : Writer) (project all : GoMap Package) (objs : List Obj)
    (ht : TypedProject D project all objs) (hv : ValidMapOrders ord) (i : Nat) (e : Package × SourceFile)
    (he : (filesOf (sortedValues project))[i]? = some e) (path : Str) (occs : List Occurrence) (syms : List (SymInfo × List Str))
    (hm : (index D o ord w (.ok (project, all))).messages[i + 1]? = some (.document path occs syms))
    (quote : Str → Str) (view : Obj → View) (hview : Views view) (hos : D.objectString = fun o => objectString quote (fun _ => []) (view o))
    (k : Nat) (l : Ident) (hk : (localIdents D all e.1 e.2)[k]? = some l) :
    ∃ s, (syms.map (·.1)).filter (·.symbol == localName k) = [s] ∧ s.documentation = [] ∧
      (¬ SwitchIdent e.1 l → ∃ d, e.1.env.defs l.uid = some d ∧ s.displayName = d.self.name ∧ s.kind = kindForObject (some d.self) ∧
        s.signature = some (localSignature quote (some (view d)))) ∧
      (SwitchIdent e.1 l → s.signature = none ∧ ∃ x ∈ e.1.implicits, x.self.pos = l.pos ∧ s.displayName = x.self.name ∧
        s.kind = kindForObject (some x.self)) := by
  classical
  obtain ⟨docs, g, g', heap, ex, hvp, hg, him, t, st, hlk, htab, hvis, hmsg⟩ := run_document ht hv he hm
  simp only [Message.document.injEq] at hmsg
  obtain ⟨_, rfl, rfl⟩ := hmsg
  have hE := List.mem_of_getElem? he
  obtain ⟨hp, hf, _⟩ := mem_project_files ht hE
  have hgs := globalSymbols_of hg ht
  have hT := packageTable_of htab
  obtain ⟨h1, _, _⟩ := C11_locals_described hvis hgs (packageOccurrence_local _ _) D.objectString
    ((Filepath.rel o.moduleRoot e.2.fileName).getD []) (ord.table (i + 1) t) (hv.table _ _) (ord.locals (i + 1) st.locals) (hv.locals _ _)
    (fun q info hq => hgs.tables _ _ _ _ hlk (Table.get_of_mem hT.uniq hq)) D.fileOf e.2.file
  rw [events_eq hg] at h1
  have hids := localDecls_idents ht hv hE (n := i + 1) htab (fileEventsOf D all e.1 e.2) (fun _ h => h)
  have hl : localDecl (fileEnv D ord (i + 1) e.1 t) (.ident l none) ∈
      ((localDecls (fileEnv D ord (i + 1) e.1 t) (fileEventsOf D all e.1 e.2)).map some)[k]? := by
    rw [hids, List.getElem?_map]
    unfold localIdents at hk
    rw [hk]; rfl
  rw [List.getElem?_map] at hl
  obtain ⟨d, hd, hdl⟩ := Option.map_eq_some_iff.1 hl
  obtain ⟨s, hs, n1, n2, n3, n4⟩ := h1 k d hd
  have hli : l ∈ identsOf (fileEventsOf D all e.1 e.2) := by
    unfold localIdents at hk
    exact (List.mem_filter.1 (List.mem_of_getElem? hk)).1
  refine ⟨s, by rw [document_symbols]; exact hs, n3, ?_, ?_⟩
  · intro hsw
    have hnone : (fileEnv D ord (i + 1) e.1 t).caseClauses l.pos = none :=
      caseClauses_none (fun x hx h => hsw ⟨x, (hv.implicits _ _).subset hx, h⟩)
    have hdl := hdl.symm
    simp only [localDecl, hnone] at hdl
    split at hdl
    · simp at hdl
    · split at hdl
      · rename_i d' hd'
        split at hdl
        · simp at hdl
        · simp only [Option.some.injEq] at hdl
          subst hdl
          refine ⟨d', hd', n1, n2, ?_⟩
          have hpos := (ht.files _ _ hp _ hf).declared_at l hli d' hd'
          have := C80_recorded quote view hview (fileEnv D ord (i + 1) e.1 t) ⟨localSymbol k, d'⟩ (by rw [hpos]; exact hnone)
          rw [← this]
          rw [n4, hpos, hnone, hos]
          unfold localInfo signatureText
          simp only [hpos, hnone, Option.isSome_none, Bool.false_eq_true, if_false]
          cases d'.self.cls <;> simp
      · simp at hdl
  · intro hsw
    have hsome := (caseClauses_iff (D := D) hv (n := i + 1) (t := t)).2 hsw
    obtain ⟨x, hx⟩ := Option.isSome_iff_exists.1 hsome
    obtain ⟨hx1, hx2⟩ := caseClauses_pos hx
    have hdl := hdl.symm
    simp only [localDecl, hx] at hdl
    split at hdl
    · simp at hdl
    · simp only [Option.some.injEq] at hdl
      subst hdl
      refine ⟨?_, x, (hv.implicits _ _).subset hx1, hx2, n1, n2⟩
      rw [n4, hx2, hx]; rfl

end Verif
