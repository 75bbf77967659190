import Verif.Spec.Content
import Verif.Props.ProgramRelations
import Verif.Props.CommentsRun
import Verif.Props.Clauses
/-! # C87: the index is exactly what the source says -/
namespace Verif
open Spec Index

section
variable {D : Deps} {o : Opts} {ord : MapOrders} {w : Writer} {project all : GoMap Package} {objs : List Obj} {g : Global}

/-! ## Descriptions -/

/-- The entries of the table of a package are descriptions of what it declares. -/
theorem table_info (ht : TypedProject D project all objs) {p : Package} (hp : (p.path, p) ∈ project) (hn : DistinctIdents p)
    {t : Table} (htab : tableFor p (packageSymbol p) = some t) {q : Nat} {info : SymInfo} (hq : t.get q = some info) : EntityInfo p q info := by
  rcases table_entries ht hp hn htab hq with ⟨f, h1, h2, h3⟩ | ⟨i, ds, par, h1, h2, h3⟩
  · rcases (packageTable_of htab).others q info hq with ⟨f', fs, h4, h5, h6⟩ | ⟨ds, hne, hs⟩
    · exact .clause f h1 h2 h6
    · rw [h3] at hs
      exact absurd hs.symm (formatSymbol_longer _ _ _ hne)
  · refine .entity i ds h1 (by rw [h2]; rfl) (by rw [h2]; rfl) (by rw [h2]; rfl) ?_ h3
    rw [h2]
    simp only [newSymInfo]
    cases p.env.defs i.uid <;> rfl

theorem localMap_get (ds : List (Nat × Obj)) (k : Nat) :
    (localMap ds)[k]? = ds[k]?.map fun d => (d.1, ⟨localSymbol k, d.2⟩) := by
  unfold localMap
  rw [List.getElem?_map, List.getElem?_zipIdx]
  cases ds[k]? <;> simp

/-- What the file-local declaration of an identifier declares. -/
theorem localDecl_object (ht : TypedProject D project all objs) (hv : ValidMapOrders ord) {e : Package × SourceFile}
    (he : e ∈ filesOf (sortedValues project)) {n : Nat} {t : Table} {i : Ident}
    (hi : i ∈ identsOf (fileEventsOf D all e.1 e.2)) {decl : Option (Nat × Nat)} {d : Nat × Obj}
    (h : localDecl (fileEnv D ord n e.1 t) (.ident i decl) = some d) (k : Nat) :
    LocalInfo D e.1 i k (localInfo (fileEnv D ord n e.1 t) D.objectString ⟨localSymbol k, d.2⟩) := by
  obtain ⟨hp, hf, _⟩ := mem_project_files ht he
  have hcc := caseClauses_iff (D := D) (ord := ord) hv (n := n) (p := e.1) (t := t) (i := i)
  refine ⟨rfl, rfl, ?_, ?_⟩
  · intro hs
    obtain ⟨x, hx⟩ := Option.isSome_iff_exists.1 (hcc.2 hs)
    have hd : d = (x.self.pos, x) := by
      simp only [localDecl, hx] at h
      split at h
      · simp at h
      · simpa using h.symm
    subst hd
    obtain ⟨h1, h2⟩ := caseClauses_pos hx
    have h1' : x ∈ e.1.implicits := (hv.implicits _ _).subset h1
    refine ⟨?_, x, h1', h2, rfl, rfl⟩
    simp only [localInfo, h2, hx]
  · intro hs
    have hx : (fileEnv D ord n e.1 t).caseClauses i.pos = none := by
      cases hx : (fileEnv D ord n e.1 t).caseClauses i.pos with
      | none => rfl
      | some x => exact absurd (hcc.1 (by rw [hx]; rfl)) hs
    simp only [localDecl, hx] at h
    split at h
    · simp at h
    · split at h
      · rename_i d' hd'
        have hpos := (ht.files _ _ hp _ hf).declared_at i hi d' hd'
        split at h
        · simp at h
        · simp only [Option.some.injEq] at h
          subst h
          refine ⟨d', hd', rfl, rfl, ?_⟩
          simp only [localInfo, hpos, hx]
          cases hcls : d'.self.cls <;> simp [signatureText, hcls]
      · simp at h

open Classical in
/-- The local declarations of a file and the identifiers that make them. -/
theorem localDecls_get (ht : TypedProject D project all objs) (hv : ValidMapOrders ord) {e : Package × SourceFile}
    (he : e ∈ filesOf (sortedValues project)) {n : Nat} {t : Table} (htab : tableFor e.1 (packageSymbol e.1) = some t) (es : List Event)
    (hsub : ∀ i ∈ identsOf es, i ∈ identsOf (fileEventsOf D all e.1 e.2)) :
    List.Forall₂ (fun i d => ∃ decl, localDecl (fileEnv D ord n e.1 t) (.ident i decl) = some d)
      ((identsOf es).filter (fun i => decide (LocalIdent e.1 i))) (localDecls (fileEnv D ord n e.1 t) es) := by
  induction es with
  | nil => exact .nil
  | cons ev es ih =>
    cases ev with
    | qualifier j x q => exact ih (fun i hi => hsub i hi)
    | imp uid name pp => exact ih (fun i hi => hsub i hi)
    | ident j decl =>
      have ih := ih (fun i hi => hsub i (by rw [identsOf_cons_ident]; exact List.mem_cons_of_mem _ hi))
      obtain ⟨h1, h2⟩ := localDecl_iff ht hv he (n := n) htab (hsub j (by rw [identsOf_cons_ident]; simp)) decl
      rw [identsOf_cons_ident, List.filter_cons]
      unfold localDecls at ih ⊢
      rw [List.filterMap_cons]
      cases hd : localDecl (fileEnv D ord n e.1 t) (.ident j decl) with
      | none =>
        rw [hd] at h1
        have : ¬ LocalIdent e.1 j := fun h => by simpa using h1.2 h
        simp only [this, decide_false, Bool.false_eq_true, if_false]
        exact ih
      | some d =>
        rw [hd] at h1
        have : LocalIdent e.1 j := h1.1 rfl
        simp only [this, decide_true, if_true]
        exact .cons ⟨decl, hd⟩ ih

theorem forall2_get {α β : Type} {R : α → β → Prop} {l : List α} {m : List β} (h : List.Forall₂ R l m) (k : Nat) (a : α) (b : β)
    (ha : l[k]? = some a) (hb : m[k]? = some b) : R a b := by
  induction h generalizing k with
  | nil => simp at ha
  | cons h _ ih =>
    cases k with
    | zero => simp at ha hb; subst ha; subst hb; exact h
    | succ k => exact ih k (by simpa using ha) (by simpa using hb)

/-! ## Occurrences -/

/-- The definitions of an event. -/
def defsOf (env : FileEnv) (before : List Event) : Event → List Occurrence
  | .ident i decl => defOccs env before i decl
  | _ => []

/-- The contributions of the events one by one. -/
def partsFrom (env : FileEnv) (g : Global) : List Event → List Event → List (List Occurrence × List Occurrence)
  | _, [] => []
  | before, e :: es => (defsOf env before e, refsOf env g (before ++ [e]) e) :: partsFrom env g (before ++ [e]) es

theorem occsFrom_parts (env : FileEnv) (g : Global) (before es : List Event) :
    occsFrom env g before es = (partsFrom env g before es).flatMap fun x => x.1 ++ x.2 := by
  induction es generalizing before with
  | nil => rfl
  | cons e es ih =>
    show occsAt env g before e ++ occsFrom env g (before ++ [e]) es = _
    rw [ih]
    show _ = (defsOf env before e ++ refsOf env g (before ++ [e]) e) ++ _
    congr 1
    cases e <;> rfl

theorem partsFrom_length (env : FileEnv) (g : Global) (before es : List Event) : (partsFrom env g before es).length = es.length := by
  induction es generalizing before with
  | nil => rfl
  | cons e es ih => simp [partsFrom, ih]

theorem partsFrom_get (env : FileEnv) (g : Global) (before es : List Event) (k : Nat) (ev : Event) (h : es[k]? = some ev) :
    (partsFrom env g before es)[k]? = some (defsOf env (before ++ es.take k) ev, refsOf env g (before ++ es.take (k + 1)) ev) := by
  induction es generalizing before k with
  | nil => simp at h
  | cons e es ih =>
    cases k with
    | zero => simp at h; subst h; simp [partsFrom]
    | succ k =>
      have := ih (before ++ [e]) k (by simpa using h)
      simp only [partsFrom, List.getElem?_cons_succ, this, List.take_succ_cons, List.append_assoc, List.singleton_append]

/-- Where the answer of the symbol table comes from. -/
theorem answer_from (scopes : Scopes) (g : Global) (r : Obj) (info : SymInfo) (h : (g.getSymbolOfObject scopes r).2 = .info info) :
    ∃ path, r.self.pkg = some path ∧ ((∃ c ∈ testPackageCombinations path, g.getSymbolInformation c r.self.pos = some info) ∨
      ((testPackageCombinations path).findSome? (fun c => g.getSymbolInformation c r.self.pos) = none ∧ info.documentation = [])) := by
  unfold Global.getSymbolOfObject at h
  dsimp only at h
  split at h
  · simp at h
  · split at h <;> try (simp at h; done)
    split at h
    · split at h <;> try (simp at h; done)
      split at h <;> simp at h
    · rename_i path hpath
      refine ⟨path, hpath, ?_⟩
      split at h
      · simp at h
      · split at h
        · rename_i i hi
          obtain ⟨c, hc, hi⟩ := List.exists_of_findSome?_eq_some hi
          simp only [Found.info.injEq] at h; subst h
          exact .inl ⟨c, hc, hi⟩
        · rename_i hnone
          split at h
          · split at h
            · simp at h
            · simp only [Found.info.injEq] at h; subst h
              exact .inr ⟨hnone, rfl⟩
          · simp at h

/-- An entry of the symbol table describes what a project package declares. -/
theorem symbolInformation_info (hg : Collected' o project all g) (ht : TypedProject D project all objs)
    (hdist : ∀ p, (p.path, p) ∈ project → DistinctIdents p) {c : Str} {q : Nat} {info : SymInfo}
    (h : g.getSymbolInformation c q = some info) : ∃ p, (p.path, p) ∈ project ∧ p.path = c ∧ EntityInfo p q info := by
  unfold Global.getSymbolInformation at h
  obtain ⟨r, hr, hi⟩ := Option.bind_eq_some_iff.1 h
  cases hp : project.get c with
  | none =>
    rw [hg.others c hp] at hr
    obtain ⟨p, _, rfl⟩ := Option.map_eq_some_iff.1 hr
    simp [Table.get_nil] at hi
  | some p =>
    have hm := GoMap.mem_of_get hp
    have hpath := ht.project_keyed.path _ _ hm
    subst hpath
    obtain ⟨t, htab, hl⟩ := hg.inProject p hm
    rw [hl] at hr
    simp only [Option.some.injEq] at hr
    subst hr
    exact ⟨p, hm, rfl, table_info ht hm (hdist p hm) htab hi⟩

/-- The references of an identifier are marked as its description says. -/
theorem refs_deprecated (hg : Collected' o project all g) (ht : TypedProject D project all objs)
    (hdist : ∀ p, (p.path, p) ∈ project → DistinctIdents p) (env : FileEnv) (hscopes : env.scopes = D.scopes) (upto : List Event) (i : Ident)
    (r : Obj) (hr : env.pkg.uses i.uid = some r) : RefsDeprecated project r (refOccs env g upto i) := by
  intro x hx hnl
  unfold refOccs at hx
  split at hx
  · simp at hx
  · rw [hr] at hx
    simp only at hx
    split at hx
    · rename_i s b htarget
      simp only [List.mem_singleton] at hx
      subst hx
      unfold target at htarget
      split at htarget
      · rename_i s' hs'
        simp only [Option.some.injEq, Prod.mk.injEq] at htarget
        obtain ⟨rfl, rfl⟩ := htarget
        unfold localSymbolAt at hs'
        obtain ⟨k, _, rfl⟩ := Option.map_eq_some_iff.1 hs'
        exact absurd rfl (hnl k)
      · split at htarget
        · rename_i info hinfo
          simp only [Option.some.injEq, Prod.mk.injEq] at htarget
          obtain ⟨rfl, rfl⟩ := htarget
          rw [hscopes] at hinfo
          obtain ⟨path, hpath, ⟨c, hc, hi⟩ | ⟨hnone, hdoc⟩⟩ := answer_from _ _ _ _ hinfo
          · obtain ⟨p, h1, h2, h3⟩ := symbolInformation_info hg ht hdist hi
            exact .inl ⟨path, p, info, hpath, h1, by rw [h2]; exact hc, h3, rfl, C66_deprecated_iff _⟩
          · refine .inr ⟨?_, by simp only [hdoc]; rfl⟩
            rintro path' s hp' ⟨p, h1, h2, h3⟩
            rw [hpath] at hp'
            simp only [Option.some.injEq] at hp'
            subst hp'
            rw [List.findSome?_eq_none_iff] at hnone
            obtain ⟨info', hi'⟩ := (symbolInformation_declared hg ht p.path r.self.pos).2 p h1 rfl s h3
            rw [hnone p.path h2] at hi'
            simp at hi'
        · simp at htarget
    · simp at hx

/-- The definitions of an identifier. -/
theorem ident_defs (ht : TypedProject D project all objs) (hv : ValidMapOrders ord)
    (hdist : ∀ p, (p.path, p) ∈ project → DistinctIdents p) {e : Package × SourceFile}
    (he : e ∈ filesOf (sortedValues project)) {n : Nat} {t : Table} (htab : tableFor e.1 (packageSymbol e.1) = some t) (k : Nat)
    (i : Ident) (decl : Option (Nat × Nat)) (hev : (fileEventsOf D all e.1 e.2)[k]? = some (.ident i decl)) (syms : List (SymInfo × List Str))
    (hsyms : ∀ q info, t.get q = some info → D.fileOf q = some e.2.file → ∃ s ∈ syms, s.1 = info) :
    IdentDefs D all e syms i decl (defOccs (fileEnv D ord n e.1 t) ((fileEventsOf D all e.1 e.2).take k) i decl) := by
  classical
  obtain ⟨hp, hf, _⟩ := mem_project_files ht he
  have hi : i ∈ identsOf (fileEventsOf D all e.1 e.2) := mem_identsOf.2 ⟨decl, List.mem_of_getElem? hev⟩
  have hcc := caseClauses_iff (D := D) (ord := ord) hv (n := n) (p := e.1) (t := t) (i := i)
  have hcn : ¬ SwitchIdent e.1 i → (fileEnv D ord n e.1 t).caseClauses i.pos = none := by
    intro h
    cases hx : (fileEnv D ord n e.1 t).caseClauses i.pos with
    | none => rfl
    | some x => exact absurd (hcc.1 (by rw [hx]; rfl)) h
  have hdefs : (fileEnv D ord n e.1 t).pkg.defs i.uid = e.1.env.defs i.uid := rfl
  have htbl : (fileEnv D ord n e.1 t).pkgTable = t := rfl
  have htb := table_iff ht he htab hi
  have hdecl := (ht.files _ _ hp _ hf).declared_at i hi
  have hsplit : fileEventsOf D all e.1 e.2 = (fileEventsOf D all e.1 e.2).take k ++ .ident i decl :: (fileEventsOf D all e.1 e.2).drop (k + 1) := by
    obtain ⟨hk, hx⟩ := List.getElem?_eq_some_iff.1 hev
    rw [← hx, List.getElem_cons_drop, List.take_append_drop]
  have hlen : (localDecls (fileEnv D ord n e.1 t) ((fileEventsOf D all e.1 e.2).take k)).length =
      ((identsOf ((fileEventsOf D all e.1 e.2).take k)).filter (fun i => decide (LocalIdent e.1 i))).length := by
    have := congrArg List.length (localDecls_positions ht hv he (n := n) htab ((fileEventsOf D all e.1 e.2).take k) (by
      intro j hj; rw [hsplit, identsOf_append]; exact List.mem_append_left _ hj))
    simpa using this
  have hloc : LocalIdent e.1 i → (localIdents D all e.1 e.2)[(localDecls (fileEnv D ord n e.1 t)
      ((fileEventsOf D all e.1 e.2).take k)).length]? = some i := by
    intro h
    have heq : localIdents D all e.1 e.2 = (identsOf ((fileEventsOf D all e.1 e.2).take k)).filter (fun i => decide (LocalIdent e.1 i)) ++
        i :: (identsOf ((fileEventsOf D all e.1 e.2).drop (k + 1))).filter (fun i => decide (LocalIdent e.1 i)) := by
      have := congrArg (fun l => (identsOf l).filter (fun i => decide (LocalIdent e.1 i))) hsplit
      simp only [identsOf_append, identsOf_cons_ident, List.filter_append] at this
      rw [List.filter_cons_of_pos (by simpa using h)] at this
      exact this
    rw [heq, hlen, List.getElem?_append_right (Nat.le_refl _)]
    simp
  refine ⟨?_, ?_, ?_, ?_⟩
  · intro h
    unfold defOccs
    by_cases hb : i.name = go!"_"
    · rw [if_pos hb]
    · rw [if_neg hb]
      have hns : ¬ SwitchIdent e.1 i := fun hs => h ⟨hb, .inl hs⟩
      rw [hcn hns]
      have : e.1.env.defs i.uid = none := by
        cases hd : e.1.env.defs i.uid with
        | none => rfl
        | some d => exact absurd ⟨hb, .inr (by rw [hd]; rfl)⟩ h
      simp only [hdefs, this]
  · intro hb hs
    refine ⟨_, hloc ⟨hb, .inl hs⟩, ?_⟩
    obtain ⟨x, hx⟩ := Option.isSome_iff_exists.1 (hcc.2 hs)
    unfold defOccs
    rw [if_neg hb, hx]
    rfl
  · intro hl hs
    refine ⟨_, hloc hl, ?_⟩
    obtain ⟨hb, h | ⟨hd, hn⟩⟩ := hl
    · exact absurd h hs
    · obtain ⟨d, hd⟩ := Option.isSome_iff_exists.1 hd
      have hnone : t.get d.self.pos = none := by
        rw [hdecl d hd]
        cases hg : t.get i.pos with
        | none => rfl
        | some info => exact absurd (htb.1 (by rw [hg]; rfl)) hn
      unfold defOccs
      rw [if_neg hb, hcn hs]
      simp only [hdefs, hd, htbl, hnone]
      rfl
  · intro hd hl
    obtain ⟨hb, hd⟩ := hd
    have hs : ¬ SwitchIdent e.1 i := fun h => hl ⟨hb, .inl h⟩
    have hd : (e.1.env.defs i.uid).isSome := by
      rcases hd with h | h
      · exact absurd h hs
      · exact h
    have hpl : PackageLevel e.1 i := by
      by_contra h
      exact hl ⟨hb, .inr ⟨hd, h⟩⟩
    obtain ⟨info, hinfo⟩ := Option.isSome_iff_exists.1 (htb.2 hpl)
    obtain ⟨d, hd⟩ := Option.isSome_iff_exists.1 hd
    obtain ⟨s, hs1, hs2⟩ := hsyms _ _ hinfo ((ht.fileSet _ _ hp _ hf).2 i hi)
    refine ⟨s, hs1, by rw [hs2]; exact table_info ht hp (hdist _ hp) htab hinfo, isDocDeprecated info.documentation, ?_, ?_⟩
    · rw [hs2]; exact C66_deprecated_iff _
    · unfold defOccs
      rw [if_neg hb, hcn hs]
      simp only [hdefs, hd, htbl, hdecl d hd, hinfo, hs2]
      rfl

end

/-- **C87** for a document: every document of a run, whether it succeeds or not, has exactly the occurrences and descriptions that the
source file and the declarations of its package call for. -/
theorem C87_document (D : Deps) (o : Opts) (ord : MapOrders) (w : Writer) (project all : GoMap Package) (objs : List Obj)
    (ht : TypedProject D project all objs) (hv : ValidMapOrders ord) (hn : NamedTypes D project all)
    (hdist : ∀ p, (p.path, p) ∈ project → DistinctIdents p) (horig : ∀ r ∈ objs, ∀ q, (entityOf r).cls ≠ .pkgName q)
    (n : Nat) (e : Package × SourceFile) (he : (filesOf (sortedValues project))[n]? = some e) (path : Str) (occs : List Occurrence)
    (syms : List (SymInfo × List Str))
    (hm : (index D o ord w (.ok (project, all))).messages[n + 1]? = some (.document path occs syms)) :
    DocumentOf D o project all e path occs syms := by
  classical
  obtain ⟨n', e', h1, h2, hpath⟩ := document_at D o ord w project all hm
  obtain rfl : n = n' := by omega
  rw [he] at h2
  simp only [Option.some.injEq] at h2
  subst h2
  obtain ⟨rest, hrest, _⟩ := C58_clause_definition D o ord w project all objs ht hv n e he path occs syms hm
  obtain ⟨docs, g, g', heap, ex, hvp, hg, him, t, st, hlk, htab, hvis, hmsg⟩ := run_document ht hv he hm
  simp only [Message.document.injEq] at hmsg
  obtain ⟨_, rfl, rfl⟩ := hmsg
  have hE := List.mem_of_getElem? he
  obtain ⟨hp, hf, _⟩ := mem_project_files ht hE
  have hT := packageTable_of htab
  rw [document_pairs]
  have hmem : ∀ q info, t.get q = some info → D.fileOf q = some e.2.file →
      (info, heap (.entry e.1.path q)) ∈ ((ord.table (n + 1) t).filter (fun x => D.fileOf x.1 == some e.2.file)).map
        (fun x => (x.2, heap (.entry e.1.path x.1))) := by
    intro q info hq hfo
    exact List.mem_map.2 ⟨(q, info), List.mem_filter.2 ⟨(hv.table _ _).symm.subset (Table.mem_of_get hq), by simp [hfo]⟩, rfl⟩
  refine ⟨hpath, ?_, ?_⟩
  · refine ⟨partsFrom (fileEnv D ord (n + 1) e.1 t) g [] (fileEventsOf D all e.1 e.2), ?_, partsFrom_length _ _ _ _, ?_⟩
    · rw [← occsFrom_parts]
      have h0 := hvis.occs
      rw [events_eq hg] at h0
      rw [h0] at hrest
      simp only [List.cons.injEq] at hrest
      rw [h0, hrest.1]
    · intro k ev x hev hx
      rw [partsFrom_get _ _ _ _ k ev hev] at hx
      simp only [List.nil_append, Option.some.injEq] at hx
      subst hx
      refine ⟨refsOf_event hg ht hv horig hE htab k ev hev, ?_⟩
      cases ev with
      | qualifier => rfl
      | imp => rfl
      | ident i decl =>
        refine ⟨ident_defs ht hv hdist hE htab k i decl hev _ ?_, ?_⟩
        · intro q info hq hfo
          exact ⟨_, List.mem_append_left _ (hmem q info hq hfo), rfl⟩
        · intro r hr
          exact refs_deprecated hg ht hdist _ rfl _ i r hr
  · have hpos := localDecls_get ht hv hE (n := n + 1) htab (fileEventsOf D all e.1 e.2) (fun _ h => h)
    have hloc := hvis.inv.locals
    rw [events_eq hg] at hloc
    refine ⟨((ord.table (n + 1) t).filter (fun x => D.fileOf x.1 == some e.2.file)).map (·.1),
      ((ord.table (n + 1) t).filter (fun x => D.fileOf x.1 == some e.2.file)).map (fun x => (x.2, heap (.entry e.1.path x.1))),
      st.locals.map (fun x => (localInfo (fileEnv D ord (n + 1) e.1 t) D.objectString x.2, [])), ?_, ?_, ?_, ?_, ?_, ?_⟩
    · exact List.Perm.append_left _ ((hv.locals _ _).map _)
    · have : ((ord.table (n + 1) t).map (·.1)).Nodup := by rw [((hv.table _ t).map _).nodup_iff]; exact hT.uniq
      exact this.sublist (List.Sublist.map _ List.filter_sublist)
    · intro q
      constructor
      · intro hq
        obtain ⟨x, hx, rfl⟩ := List.mem_map.1 hq
        simp only [List.mem_filter, beq_iff_eq] at hx
        exact ⟨hx.2, _, (table_declared ht hp htab x.1).1 x.2 (Table.get_of_mem hT.uniq ((hv.table _ _).subset hx.1))⟩
      · rintro ⟨hfo, hsym⟩
        obtain ⟨info, hi⟩ := (table_declared ht hp htab q).2 hsym
        exact List.mem_map.2 ⟨(q, info), List.mem_filter.2 ⟨(hv.table _ _).symm.subset (Table.mem_of_get hi), by simp [hfo]⟩, rfl⟩
    · rw [List.forall₂_map_left_iff, List.forall₂_map_right_iff, List.forall₂_same]
      intro x hx
      simp only [List.mem_filter, beq_iff_eq] at hx
      exact ⟨table_info ht hp (hdist _ hp) htab (Table.get_of_mem hT.uniq ((hv.table _ _).subset hx.1)),
        relationshipsAt hg ht hv hn hvp him hp x.1⟩
    · rw [List.length_map, hloc]
      unfold localMap
      rw [List.length_map, List.length_zipIdx]
      exact hpos.length_eq.symm
    · intro k i s hi hs
      rw [List.getElem?_map, hloc, localMap_get] at hs
      obtain ⟨y, hy, rfl⟩ := Option.map_eq_some_iff.1 hs
      obtain ⟨d, hd, rfl⟩ := Option.map_eq_some_iff.1 hy
      obtain ⟨decl, hl⟩ := forall2_get hpos k i d hi hd
      refine ⟨localDecl_object ht hv hE ?_ hl k, rfl⟩
      have := List.mem_of_getElem? hi
      unfold localIdents at this
      exact (List.mem_filter.1 this).1

theorem external_once {es : List Message} (h : (es.filterMap externalSymbol).Nodup) :
    es.Pairwise fun m m' => ∀ sym rels rels', m = .external sym rels → m' ≠ .external sym rels' := by
  induction es with
  | nil => exact .nil
  | cons m es ih =>
    rw [List.filterMap_cons] at h
    cases hm : externalSymbol m with
    | none =>
      rw [hm] at h
      refine .cons ?_ (ih h)
      rintro m' _ sym rels rels' rfl _
      simp [externalSymbol] at hm
    | some s =>
      rw [hm] at h
      simp only [List.nodup_cons] at h
      refine .cons ?_ (ih h.2)
      rintro m' hm' sym rels rels' rfl rfl
      simp only [externalSymbol, Option.some.injEq] at hm
      subst hm
      exact h.1 (List.mem_filterMap.2 ⟨_, hm', rfl⟩)

/-- **C87.** A successful run writes the index of the project: metadata, one document for each file with exactly the occurrences and
descriptions that the source calls for, and exactly the external symbols. -/
theorem C87_index (D : Deps) (o : Opts) (ord : MapOrders) (w : Writer) (project all : GoMap Package) (objs : List Obj)
    (ht : TypedProject D project all objs) (hv : ValidMapOrders ord) (hn : NamedTypes D project all)
    (hdist : ∀ p, (p.path, p) ∈ project → DistinctIdents p) (horig : ∀ r ∈ objs, ∀ q, (entityOf r).cls ≠ .pkgName q)
    (hok : (index D o ord w (.ok (project, all))).outcome = .ok) :
    IndexOf D o project all (index D o ord w (.ok (project, all))).messages := by
  obtain ⟨pr, al, docs, g, g', heap, ds, ex, hl, hvp, him, hms, hpaths, hlen⟩ := C49_success_is_complete D o ord w _ hok
  simp only [Except.ok.injEq, Prod.mk.injEq] at hl
  obtain ⟨rfl, rfl⟩ := hl
  have hdocs := isDocument_of_paths (by rw [hpaths, List.length_map, hlen])
  have hex := externals_of him
  refine ⟨metadata D o, sortedValues project, ds, ex, hms, ⟨rfl, rfl, rfl, rfl, ?_, rfl⟩, (sortedValues_spec ht.project_keyed).1,
    (sortedValues_spec ht.project_keyed).2, ?_, ?_⟩
  · show projectRoot D o.moduleRoot = _
    rfl
  · show List.Forall₂ _ (filesOf (sortedValues project)) ds
    rw [List.forall₂_iff_get]
    refine ⟨hlen.symm, ?_⟩
    intro k hk hk'
    simp only [List.get_eq_getElem]
    have hmk : (index D o ord w (.ok (project, all))).messages[k + 1]? = some ds[k] := by
      rw [hms, List.getElem?_cons_succ, List.getElem?_append_left hk', List.getElem?_eq_getElem hk']
    cases e : ds[k] with
    | metadata => have := hdocs _ (List.getElem_mem hk'); rw [e] at this; exact this.elim
    | external => have := hdocs _ (List.getElem_mem hk'); rw [e] at this; exact this.elim
    | document path occs syms =>
      rw [e] at hmk
      exact ⟨path, occs, syms, rfl, C87_document D o ord w project all objs ht hv hn hdist horig k _ (List.getElem?_eq_getElem hk) path occs
        syms hmk⟩
  · obtain ⟨h1, h2⟩ := C84_external_symbols D o ord w project all objs ht hv hn hok
    have honce := C35_written_once D o ord w project all objs ht hv
    refine ⟨?_, ?_, ?_⟩
    · intro m hm
      have := hex m hm
      cases m with
      | metadata => exact this.elim
      | document => exact this.elim
      | external sym rels =>
        obtain ⟨a, b, c, d⟩ := h2 sym rels (by rw [hms]; simp [hm])
        exact ⟨sym, rels, rfl, a, b, c, d⟩
    · intro p t n p' t' i hs h
      obtain ⟨rels, hr⟩ := h1 p t n p' t' i hs h
      rw [hms] at hr
      refine ⟨rels, ?_⟩
      rcases List.mem_cons.1 hr with hr | hr
      · simp at hr
      · rcases List.mem_append.1 hr with hr | hr
        · exact (hdocs _ hr).elim
        · exact hr
    · rw [hms] at honce
      refine external_once (honce.sublist ?_)
      exact List.Sublist.filterMap _ ((List.sublist_append_right ds ex).trans (List.sublist_cons_self _ _))

end Verif
