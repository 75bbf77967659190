import Verif.Spec.WholeRun
import Verif.Props.EndToEnd
/-! # Whole runs: C09, C10, C12, C13, C16, C17 for the documents of a run -/
namespace Verif
open Spec Index

section
variable {D : Deps} {o : Opts} {ord : MapOrders} {w : Writer} {project all : GoMap Package} {objs : List Obj}

/-- The table of a package has an entry at an identifier iff the package declares an entity there. -/
theorem table_iff (ht : TypedProject D project all objs) {e : Package × SourceFile} (he : e ∈ filesOf (sortedValues project))
    {t : Table} (htab : tableFor e.1 (packageSymbol e.1) = some t) {i : Ident} (hi : i ∈ identsOf (fileEventsOf D all e.1 e.2)) :
    (t.get i.pos).isSome = true ↔ PackageLevel e.1 i := by
  obtain ⟨hp, hf, _⟩ := mem_project_files ht he
  obtain ⟨t₀, ht₀, hc⟩ := C21_package_collected e.1.env (e.1.files.map SourceFile.node) (filesOk_of ht hp) []
  have hget : t.get i.pos = t₀.get i.pos := by
    unfold tableFor at htab
    rw [ht₀] at htab
    simp only [Option.map_some, Option.some.injEq] at htab
    cases hfs : e.1.files with
    | nil => rw [hfs] at htab; simp only at htab; rw [← htab]
    | cons f fs =>
      rw [hfs] at htab
      simp only at htab
      rw [← htab, Table.get_set_ne _ _ _ _ (ht.clauses _ _ hp _ hf f (by rw [hfs]; simp) i hi)]
  rw [hget]
  constructor
  · intro h
    obtain ⟨info, hinfo⟩ := Option.isSome_iff_exists.1 h
    rcases hc.sound _ _ hinfo with h | ⟨i', ds, hd, _⟩
    · simp [Table.get_nil] at h
    · exact ⟨i', ds, hd⟩
  · rintro ⟨i', ds, hd⟩
    obtain ⟨info, h⟩ := hc.complete _ _ _ hd
    rw [h]; rfl

theorem caseClauses_iff (hv : ValidMapOrders ord) {n : Nat} {p : Package} {t : Table} {i : Ident} :
    ((fileEnv D ord n p t).caseClauses i.pos).isSome = true ↔ SwitchIdent p i := by
  constructor
  · intro h
    obtain ⟨x, hx⟩ := Option.isSome_iff_exists.1 h
    obtain ⟨h1, h2⟩ := caseClauses_pos hx
    exact ⟨x, (hv.implicits _ _).subset h1, h2⟩
  · rintro ⟨x, hx, h⟩
    unfold FileEnv.caseClauses
    rw [List.find?_isSome]
    exact ⟨x, List.mem_reverse.2 ((hv.implicits n _).symm.subset hx), by simpa using h⟩

/-- The local declarations of a file, in terms of the source. -/
theorem localDecl_iff (ht : TypedProject D project all objs) (hv : ValidMapOrders ord) {e : Package × SourceFile}
    (he : e ∈ filesOf (sortedValues project)) {n : Nat} {t : Table} (htab : tableFor e.1 (packageSymbol e.1) = some t) {i : Ident}
    (hi : i ∈ identsOf (fileEventsOf D all e.1 e.2)) (decl : Option (Nat × Nat)) :
    ((localDecl (fileEnv D ord n e.1 t) (.ident i decl)).isSome = true ↔ LocalIdent e.1 i) ∧
    ∀ d, localDecl (fileEnv D ord n e.1 t) (.ident i decl) = some d → d.1 = i.pos := by
  obtain ⟨hp, hf, _⟩ := mem_project_files ht he
  have hdecl := (ht.files _ _ hp _ hf).declared_at i hi
  have hcc := caseClauses_iff (D := D) (ord := ord) hv (n := n) (p := e.1) (t := t) (i := i)
  have htb := table_iff ht he htab hi
  simp only [localDecl, LocalIdent]
  by_cases hb : i.name = go!"_"
  · simp [hb]
  · simp only [hb, if_false, ne_eq, not_false_iff, true_and]
    cases hx : (fileEnv D ord n e.1 t).caseClauses i.pos with
    | some x =>
      rw [hx] at hcc
      refine ⟨by simpa using Or.inl (hcc.1 rfl), ?_⟩
      intro d hd
      simp only [Option.some.injEq] at hd
      subst hd
      exact (caseClauses_pos hx).2
    | none =>
      rw [hx] at hcc
      have hns : ¬ SwitchIdent e.1 i := fun h => by simpa using hcc.2 h
      have hdefs : (fileEnv D ord n e.1 t).pkg.defs i.uid = e.1.env.defs i.uid := rfl
      have htbl : (fileEnv D ord n e.1 t).pkgTable = t := rfl
      simp only [hdefs, htbl, hns, false_or]
      cases hd : e.1.env.defs i.uid with
      | none => simp
      | some d =>
        have hpos := hdecl d hd
        simp only [hpos, Option.isSome_some, true_and]
        by_cases hg : (t.get i.pos).isSome = true
        · simp [hg, htb.1 hg]
        · have hg' : ¬ PackageLevel e.1 i := fun h => hg (htb.2 h)
          simp [hg, hg']

end

theorem identsOf_cons_ident (i : Ident) (decl : Option (Nat × Nat)) (es : List Event) :
    identsOf (.ident i decl :: es) = i :: identsOf es := rfl

/-- The local definitions with their ranges, event by event. -/
theorem local_definitions (env : FileEnv) (g : Global) (hg : GlobalSymbols g)
    (hloc : ∀ q info, env.pkgTable.get q = some info → isLocalSymbol info.symbol = false) (es before : List Event) :
    ((occsFrom env g before es).filter (fun x => x.isDef && isLocalSymbol x.symbol)).map (fun x => (x.range, x.symbol)) =
      (((identsOf es).filter (fun i => (localDecl env (.ident i none)).isSome)).zipIdx (localDecls env before).length).map
        (fun e => (identSpan env e.1, localSymbol e.2)) := by
  have hls : ∀ k, isLocalSymbol (localSymbol k) = true := localSymbol_prefix
  induction es generalizing before with
  | nil => rfl
  | cons e es ih =>
    simp only [occsFrom, List.filter_append, List.map_append]
    rw [ih]
    have hrefs : ∀ l : List Occurrence, (∀ x ∈ l, x.isDef = false) → l.filter (fun x => x.isDef && isLocalSymbol x.symbol) = [] := by
      intro l hl
      rw [List.filter_eq_nil_iff]
      intro x hx
      simp [hl x hx]
    have hlen : (localDecls env (before ++ [e])).length = (localDecls env before).length + (localDecl env e).toList.length := by
      rw [localDecls_append, List.length_append]
      cases h : localDecl env e <;> simp [localDecls, h]
    cases e with
    | qualifier j x imported =>
      have h0 : (occsAt env g before (.qualifier j x imported)).filter (fun x => x.isDef && isLocalSymbol x.symbol) = [] := by
        apply hrefs
        intro y hy
        simp only [occsAt] at hy
        split at hy
        · simp at hy; subst hy; rfl
        · simp at hy
      rw [h0, hlen]
      rfl
    | imp uid name pp =>
      have h0 : (occsAt env g before (.imp uid name pp)).filter (fun x => x.isDef && isLocalSymbol x.symbol) = [] := by
        apply hrefs
        intro y hy
        simp only [occsAt, importOccs] at hy
        split at hy
        · simp at hy
        · split at hy
          · simp at hy
          · simp only [List.mem_append, List.mem_singleton] at hy
            rcases hy with hy | rfl
            · split at hy
              · simp at hy
              · split at hy
                · simp at hy
                · simp at hy; subst hy; rfl
            · rfl
      rw [h0, hlen]
      rfl
    | ident i decl =>
      have h0 : (refOccs env g (before ++ [.ident i decl]) i).filter (fun x => x.isDef && isLocalSymbol x.symbol) = [] := by
        apply hrefs
        intro y hy
        unfold refOccs at hy
        split at hy
        · simp at hy
        · split at hy
          · simp at hy
          · split at hy
            · simp at hy; subst hy; rfl
            · simp at hy
      simp only [occsAt, List.filter_append, h0, List.append_nil]
      rw [hlen, identsOf_cons_ident]
      have hnone : localDecl env (.ident i none) = localDecl env (.ident i decl) := rfl
      rw [List.filter_cons, hnone]
      unfold defOccs
      simp only [localDecl]
      by_cases hb : i.name = go!"_"
      · simp [hb]
      · simp only [hb, if_false]
        cases hx : env.caseClauses i.pos with
        | some x => simp [hls]
        | none =>
          cases hd : env.pkg.defs i.uid with
          | none => simp
          | some d =>
            cases hi : env.pkgTable.get d.self.pos with
            | some info => simp [hi, hloc _ _ hi]
            | none => simp [hi, hls]

/-- **C09** (whole run): in every document of a run, the definitions with a local symbol are, in order, those of the identifiers that
declare something inside of this file only: the `k`-th of them, with its range, gets the symbol `local k`. -/
theorem C09_whole_run (D : Deps) (o : Opts) (ord : MapOrders) (w : Writer) (project all : GoMap Package) (objs : List Obj)
    (ht : TypedProject D project all objs) (hv : ValidMapOrders ord) (i : Nat) (e : Package × SourceFile)
    (he : (filesOf (sortedValues project))[i]? = some e) (path : Str) (occs : List Occurrence) (syms : List (SymInfo × List Str))
    (hm : (index D o ord w (.ok (project, all))).messages[i + 1]? = some (.document path occs syms)) :
    (occs.filter (fun x => x.isDef && isLocalSymbol x.symbol)).map (fun x => (x.range, x.symbol)) =
      (localIdents D all e.1 e.2).zipIdx.map (fun l => (identSpan (sourceEnv D e.1) l.1, localName l.2)) := by
  obtain ⟨docs, g, g', heap, ex, hvp, hg, him, t, st, hlk, htab, hvis, hmsg⟩ := run_document ht hv he hm
  simp only [Message.document.injEq] at hmsg
  obtain ⟨_, rfl, _⟩ := hmsg
  have hgs := globalSymbols_of hg ht
  have hE := List.mem_of_getElem? he
  rw [hvis.occs, List.filter_cons_of_neg (by simp [packageOccurrence_local]), events_eq hg]
  rw [local_definitions _ _ hgs (fun q info hq => hgs.tables _ _ _ _ hlk hq)]
  unfold localIdents
  have hfil : (identsOf (fileEventsOf D all e.1 e.2)).filter
      (fun j => (localDecl (fileEnv D ord (i + 1) e.1 t) (.ident j none)).isSome) = localIdents D all e.1 e.2 := by
    apply List.filter_congr
    intro j hj
    classical
    rw [Bool.eq_iff_iff, decide_eq_true_iff]
    exact (localDecl_iff ht hv hE htab hj none).1
  rw [hfil]
  rfl

/-! ## Names of entities -/

theorem nameType_base (r : RecvTy) (b : Str) (hb : b ≠ []) : nameType r = b ↔ RecvBase r b := by
  induction r with
  | «alias» t ih =>
    rw [nameType, ih]
    exact ⟨.alias, fun h => by cases h; assumption⟩
  | pointer t ih =>
    rw [nameType, ih]
    exact ⟨.pointer, fun h => by cases h; assumption⟩
  | named n c =>
    rw [nameType]
    constructor
    · rintro rfl; exact .named _ _
    · intro h; cases h; rfl
  | ifaceLit => rw [nameType]; exact ⟨fun h => absurd h.symm hb, fun h => by cases h⟩
  | other => rw [nameType]; exact ⟨fun h => absurd h.symm hb, fun h => by cases h⟩

theorem locateOwner_iff (scope : List ObjData) (id : Nat) (owner : ObjData) :
    locateOwner scope id = some owner ↔ ∃ before after ids, scope = before ++ owner :: after ∧
      owner.cls = .typeName (.named (.struct ids)) ∧ id ∈ ids ∧
      ∀ o' ∈ before, ∀ ids', o'.cls = .typeName (.named (.struct ids')) → id ∉ ids' := by
  unfold locateOwner
  rw [List.find?_eq_some_iff_append]
  have hyes : ∀ o : ObjData, (match o.cls with | .typeName (.named (.struct fs)) => fs.contains id | _ => false) = true ↔
      ∃ ids, o.cls = .typeName (.named (.struct ids)) ∧ id ∈ ids := by
    intro o
    constructor
    · intro h
      split at h
      · rename_i fs hc; exact ⟨fs, hc, by simpa using h⟩
      · simp at h
    · rintro ⟨ids, hc, hi⟩
      rw [hc]; simpa using hi
  constructor
  · rintro ⟨h, before, after, hs, hb⟩
    obtain ⟨ids, hc, hi⟩ := (hyes owner).1 h
    refine ⟨before, after, ids, hs, hc, hi, ?_⟩
    intro o' ho' ids' hc' hi'
    have h1 := hb o' ho'
    rw [hc'] at h1
    simp [hi'] at h1
  · rintro ⟨before, after, ids, hs, hc, hi, hb⟩
    refine ⟨(hyes owner).2 ⟨ids, hc, hi⟩, before, after, hs, ?_⟩
    intro o' ho'
    rw [Bool.not_eq_eq_eq_not, Bool.not_true, ← Bool.not_eq_true]
    intro h
    obtain ⟨ids', hc', hi'⟩ := (hyes o').1 h
    exact hb o' ho' ids' hc' hi'

theorem describe_iff (scopes : Scopes) (pkg : Str) (o : ObjData) (hp : ∀ q, o.cls ≠ .pkgName q) (ds : List Descriptor) :
    describe scopes pkg o = ds ∧ ds ≠ [] ↔ DependencyPath scopes pkg o ds := by
  constructor
  · rintro ⟨rfl, hne⟩
    unfold describe at hne ⊢
    split at hne
    · rename_i q hc; exact absurd hc (hp q)
    · rename_i ty hc; exact .typ hc
    · rename_i hc; exact .const hc
    · simp at hne
    · rename_i hc; exact .func hc
    · rename_i r hc
      split at hne
      · simp at hne
      · rename_i hb
        rw [if_neg hb]
        exact .method hc ((nameType_base r _ hb).1 rfl) hb
    · rename_i hc; exact .var hc
    · rename_i hc
      split at hne
      · simp at hne
      · rename_i owner ho
        obtain ⟨before, after, ids, h1, h2, h3, h4⟩ := (locateOwner_iff _ _ _).1 ho
        exact .field hc h1 h2 h3 h4
    · simp at hne
    · simp at hne
    · simp at hne
  · intro h
    cases h with
    | typ h => simp [describe, h]
    | const h => simp [describe, h]
    | var h => simp [describe, h]
    | func h => simp [describe, h]
    | method h hr hb => simp [describe, h, (nameType_base _ _ hb).2 hr, hb]
    | field h h1 h2 h3 h4 =>
      simp [describe, h, (locateOwner_iff _ _ _).2 ⟨_, _, _, h1, h2, h3, h4⟩]

section
variable {D : Deps} {o : Opts} {ord : MapOrders} {w : Writer} {project all : GoMap Package} {objs : List Obj} {g : Global}

/-- The table of a project package, in terms of the source. -/
theorem table_declared (ht : TypedProject D project all objs) {p : Package} (hp : (p.path, p) ∈ project)
    {t : Table} (htab : tableFor p (packageSymbol p) = some t) (q : Nat) :
    (∀ info, t.get q = some info → DeclaredAs p q info.symbol) ∧ ((∃ sym, DeclaredAs p q sym) → ∃ info, t.get q = some info) := by
  obtain ⟨t₀, ht₀, hc⟩ := C21_package_collected p.env (p.files.map SourceFile.node) (filesOk_of ht hp) []
  have hfrom : ∀ info, t₀.get q = some info → DeclaredAs p q info.symbol := by
    intro info h
    rcases hc.sound _ _ h with h | ⟨i, ds, hd, hs, _⟩
    · simp [Table.get_nil] at h
    · exact .inl ⟨i, ds, hd, hs⟩
  unfold tableFor at htab
  rw [ht₀] at htab
  simp only [Option.map_some, Option.some.injEq] at htab
  cases hfs : p.files with
  | nil =>
    rw [hfs] at htab
    simp only at htab
    subst htab
    refine ⟨hfrom, ?_⟩
    rintro ⟨sym, ⟨i, ds, hd, _⟩ | ⟨f, hf, _⟩⟩
    · exact hc.complete _ _ _ hd
    · rw [hfs] at hf; simp at hf
  | cons f fs =>
    rw [hfs] at htab
    simp only at htab
    subst htab
    by_cases hq : q = f.name.pos
    · subst hq
      constructor
      · intro info h
        refine .inr ⟨f, by rw [hfs]; rfl, rfl, ?_⟩
        rw [Table.get_set_self_cases] at h
        split at h
        · split at h
          · rename_i hs; simp only [Option.some.injEq] at h; subst h; exact hs
          · simp only [Option.some.injEq] at h; subst h; rfl
        · simp only [Option.some.injEq] at h; subst h; rfl
      · intro _
        rw [Table.get_set_self_cases]
        split
        · split
          · exact ⟨_, rfl⟩
          · exact ⟨_, rfl⟩
        · exact ⟨_, rfl⟩
    · rw [Table.get_set_ne _ _ _ _ hq]
      refine ⟨hfrom, ?_⟩
      rintro ⟨sym, ⟨i, ds, hd, _⟩ | ⟨f', hf, hpos, _⟩⟩
      · exact hc.complete _ _ _ hd
      · rw [hfs] at hf
        simp only [List.head?_cons, Option.some.injEq] at hf
        subst hf
        exact absurd hpos.symm hq

/-- What the symbol table knows about a position of a package. -/
theorem symbolInformation_declared (hg : Collected' o project all g) (ht : TypedProject D project all objs) (c : Str) (q : Nat) :
    (∀ info, g.getSymbolInformation c q = some info → ∃ p, (p.path, p) ∈ project ∧ p.path = c ∧ DeclaredAs p q info.symbol) ∧
    (∀ p, (p.path, p) ∈ project → p.path = c → ∀ sym, DeclaredAs p q sym → ∃ info, g.getSymbolInformation c q = some info) := by
  constructor
  · intro info h
    unfold Global.getSymbolInformation at h
    obtain ⟨r, hr, hi⟩ := Option.bind_eq_some_iff.1 h
    cases hp : project.get c with
    | none =>
      rw [hg.others c hp] at hr
      obtain ⟨p, _, rfl⟩ := Option.map_eq_some_iff.1 hr
      simp [Table.get_nil] at hi
    | some p =>
      have hm := GoMap.mem_of_get hp
      have hpath := ht.project_keyed.path _ _ hm
      subst hpath
      obtain ⟨t, htab, hl⟩ := hg.inProject p hm
      rw [hl] at hr
      simp only [Option.some.injEq] at hr
      subst hr
      exact ⟨p, hm, rfl, (table_declared ht hm htab q).1 info hi⟩
  · rintro p hp rfl sym hs
    obtain ⟨t, htab, hl⟩ := hg.inProject p hp
    obtain ⟨info, hi⟩ := (table_declared ht hp htab q).2 ⟨sym, hs⟩
    exact ⟨info, by unfold Global.getSymbolInformation; rw [hl]; exact hi⟩

/-- The answers of the symbol table of a run, in terms of the source. -/
theorem lookup_named (hg : Collected' o project all g) (ht : TypedProject D project all objs) (r : Obj)
    (hr : r ∈ objs) (hpk : ∀ q, r.self.cls ≠ .pkgName q) (horig : ∀ q, (entityOf r).cls ≠ .pkgName q) :
    (∀ info, (g.getSymbolOfObject D.scopes r).2 = .info info → NamedBy D project all r info.symbol) ∧
    ((∃ sym, NamedBy D project all r sym) → ∃ info, (g.getSymbolOfObject D.scopes r).2 = .info info) := by
  have hsk : r.self.objId ∉ g.skipped := by rw [hg.skipped]; simp
  have hw := ht.wellFormed r hr
  have hclass := C20_classification D.scopes g r hw
  cases hp : r.self.pkg with
  | none =>
    refine ⟨?_, ?_⟩
    · intro info h; rw [hclass.2.2.1 hp] at h; simp at h
    · rintro ⟨sym, _, _, path, h, _⟩; rw [hp] at h; simp at h
  | some path =>
    by_cases hn : r.self.cls = .label ∨ r.self.cls = .nil
    · refine ⟨?_, ?_⟩
      · intro info h; rw [hclass.2.2.2.1 hn] at h; simp at h
      · rintro ⟨sym, h1, h2, _⟩
        rcases hn with h | h
        · exact absurd h h2
        · exact absurd h h1
    · by_cases hu : path = go!"unsafe"
      · refine ⟨?_, ?_⟩
        · intro info h; rw [hclass.2.2.2.2 (by rw [hp, hu]) hpk] at h; simp at h
        · rintro ⟨sym, _, _, path', h, hne, _⟩
          rw [hp] at h
          simp only [Option.some.injEq] at h
          exact absurd (h ▸ hu) hne
      · have hlabel : r.self.cls ≠ .label := fun h => hn (.inl h)
        have hnil : r.self.cls ≠ .nil := fun h => hn (.inr h)
        have hfound : ∀ info, (testPackageCombinations path).findSome? (fun c => g.getSymbolInformation c r.self.pos) = some info →
            NamedInProject project path r info.symbol := by
          intro info h
          obtain ⟨c, hc, hi⟩ := List.exists_of_findSome?_eq_some h
          obtain ⟨p, h1, h2, h3⟩ := (symbolInformation_declared hg ht c r.self.pos).1 info hi
          exact ⟨p, h1, by rw [h2]; exact hc, h3⟩
        have hnotfound : (testPackageCombinations path).findSome? (fun c => g.getSymbolInformation c r.self.pos) = none →
            ∀ s, ¬ NamedInProject project path r s := by
          rintro h s ⟨p, h1, h2, h3⟩
          rw [List.findSome?_eq_none_iff] at h
          obtain ⟨info, hi⟩ := (symbolInformation_declared hg ht p.path r.self.pos).2 p h1 rfl s h3
          rw [h p.path h2] at hi
          simp at hi
        have hrec : ∀ rec, g.symbols.lookup path = some rec → ∃ p, (path, p) ∈ all ∧ rec.module = some p.env.module := by
          intro rec hl
          cases hpr : project.get path with
          | none =>
            rw [hg.others path hpr] at hl
            obtain ⟨p, hpa, rfl⟩ := Option.map_eq_some_iff.1 hl
            exact ⟨p, GoMap.mem_of_get hpa, rfl⟩
          | some p =>
            have hm := GoMap.mem_of_get hpr
            have hpath := ht.project_keyed.path _ _ hm
            subst hpath
            obtain ⟨t, _, hl'⟩ := hg.inProject p hm
            rw [hl'] at hl
            simp only [Option.some.injEq] at hl
            subst hl
            exact ⟨p, ht.sub _ _ hm, rfl⟩
        have hrec' : ∀ p, (path, p) ∈ all → ∃ rec, g.symbols.lookup path = some rec ∧ rec.module = some p.env.module := by
          intro p hpa
          have hget := GoMap.get_of_mem ht.all_keyed.nodup hpa
          cases hpr : project.get path with
          | none => exact ⟨_, by rw [hg.others path hpr, hget]; rfl, rfl⟩
          | some p' =>
            have hm := GoMap.mem_of_get hpr
            have hpath := ht.project_keyed.path _ _ hm
            have := GoMap.get_of_mem ht.all_keyed.nodup (ht.sub _ _ hm)
            rw [hget] at this
            simp only [Option.some.injEq] at this
            subst this
            obtain ⟨t, _, hl'⟩ := hg.inProject p (by rw [hpath]; exact hm)
            exact ⟨_, by rw [← hpath]; exact hl', rfl⟩
        have hcanon : r.canon = entityOf r := by unfold Obj.canon entityOf; split <;> simp_all
        have hcompose : ∀ m, (g.composer.compose D.scopes (some (some m)) (some r)).2 =
            if describe D.scopes path (entityOf r) = [] then []
            else formatSymbol ⟨m.path, m.version⟩ (describe D.scopes path (entityOf r)) := by
          intro m
          rw [hg.composer]
          simp only [Composer.compose, hp, hcanon, newComposer, List.lookup_nil]
          split <;> rfl
        have heval : (g.getSymbolOfObject D.scopes r).2 =
            match (testPackageCombinations path).findSome? (fun c => g.getSymbolInformation c r.self.pos) with
            | some info => .info info
            | none => match g.symbols.lookup path with
              | some rec => if (g.composer.compose D.scopes (some rec.module) (some r)).2 = [] then .error
                else .info (composedInfo (g.composer.compose D.scopes (some rec.module) (some r)).2)
              | none => .error := by
          unfold Global.getSymbolOfObject
          simp only [hsk, if_false, hp, hu]
          cases hc : r.self.cls with
          | pkgName q => exact absurd hc (hpk q)
          | nil => exact absurd hc hnil
          | label => exact absurd hc hlabel
          | _ =>
            cases hf : (testPackageCombinations path).findSome? (fun c => g.getSymbolInformation c r.self.pos) with
            | some info => rfl
            | none =>
              cases hl : g.symbols.lookup path with
              | none => rfl
              | some rec => simp only; split <;> rfl
        rw [heval]
        cases hf : (testPackageCombinations path).findSome? (fun c => g.getSymbolInformation c r.self.pos) with
        | some info =>
          refine ⟨?_, fun _ => ⟨info, rfl⟩⟩
          intro info' h
          simp only [Found.info.injEq] at h
          subst h
          exact ⟨hnil, hlabel, path, hp, hu, .inl (hfound _ hf)⟩
        | none =>
          have hno := hnotfound hf
          cases hl : g.symbols.lookup path with
          | none =>
            refine ⟨by simp, ?_⟩
            rintro ⟨sym, _, _, path', hp', _, hs⟩
            rw [hp] at hp'
            simp only [Option.some.injEq] at hp'
            subst hp'
            rcases hs with hs | ⟨_, p, ds, hpa, _⟩
            · exact absurd hs (hno sym)
            · obtain ⟨rec, hl', _⟩ := hrec' p hpa
              rw [hl] at hl'; simp at hl'
          | some rec =>
            obtain ⟨p, hpa, hmod⟩ := hrec rec hl
            simp only [hmod, hcompose]
            by_cases hd : describe D.scopes path (entityOf r) = []
            · simp only [hd, if_true]
              refine ⟨by simp, ?_⟩
              rintro ⟨sym, _, _, path', hp', _, hs⟩
              rw [hp] at hp'
              simp only [Option.some.injEq] at hp'
              subst hp'
              rcases hs with hs | ⟨_, p', ds, _, hdp, _⟩
              · exact absurd hs (hno sym)
              · obtain ⟨h1, h2⟩ := (describe_iff D.scopes path _ horig ds).2 hdp
                exact absurd (h1.symm.trans hd) h2
            · have hfmt : formatSymbol ⟨p.env.module.path, p.env.module.version⟩ (describe D.scopes path (entityOf r)) ≠ [] :=
                by simp [formatSymbol]
              simp only [hd, if_false, hfmt]
              refine ⟨?_, fun _ => ⟨_, rfl⟩⟩
              intro info h
              simp only [Found.info.injEq] at h
              subst h
              exact ⟨hnil, hlabel, path, hp, hu, .inr ⟨hno, p, _, hpa, (describe_iff D.scopes path _ horig _).1 ⟨rfl, hd⟩, rfl⟩⟩

end

/-! ## References -/

section
variable {D : Deps} {o : Opts} {ord : MapOrders} {w : Writer} {project all : GoMap Package} {objs : List Obj} {g : Global}

open Classical in
theorem localDecls_positions (ht : TypedProject D project all objs) (hv : ValidMapOrders ord) {e : Package × SourceFile}
    (he : e ∈ filesOf (sortedValues project)) {n : Nat} {t : Table} (htab : tableFor e.1 (packageSymbol e.1) = some t) (es : List Event)
    (hsub : ∀ i ∈ identsOf es, i ∈ identsOf (fileEventsOf D all e.1 e.2)) :
    (localDecls (fileEnv D ord n e.1 t) es).map (·.1) = ((identsOf es).filter (fun i => decide (LocalIdent e.1 i))).map (·.pos) := by
  induction es with
  | nil => rfl
  | cons ev es ih =>
    cases ev with
    | qualifier j x q => exact ih (fun i hi => hsub i hi)
    | imp uid name pp => exact ih (fun i hi => hsub i hi)
    | ident j decl =>
      have ih := ih (fun i hi => hsub i (by rw [identsOf_cons_ident]; exact List.mem_cons_of_mem _ hi))
      obtain ⟨h1, h2⟩ := localDecl_iff ht hv he (n := n) htab (hsub j (by rw [identsOf_cons_ident]; simp)) decl
      rw [identsOf_cons_ident, List.filter_cons]
      unfold localDecls at ih ⊢
      rw [List.filterMap_cons]
      cases hd : localDecl (fileEnv D ord n e.1 t) (.ident j decl) with
      | none =>
        rw [hd] at h1
        have : ¬ LocalIdent e.1 j := fun h => by simpa using h1.2 h
        simp only [this, decide_false, Bool.false_eq_true, if_false]
        exact ih
      | some d =>
        rw [hd] at h1
        have : LocalIdent e.1 j := h1.1 rfl
        simp only [this, decide_true, if_true, List.map_cons, h2 d hd]
        rw [ih]

theorem findIdx_pos (l : List Ident) (hn : (l.map (·.pos)).Nodup) (k : Nat) (x : Ident) (h : l[k]? = some x) :
    l.findIdx? (fun y => y.pos == x.pos) = some k := by
  rw [List.findIdx?_eq_some_iff_getElem]
  obtain ⟨hk, hx⟩ := List.getElem?_eq_some_iff.1 h
  refine ⟨hk, by rw [hx]; simp, ?_⟩
  intro j hj hc
  have hjl : j < l.length := Nat.lt_trans hj hk
  have hp : (l.map (·.pos))[j]'(by simpa using hjl) = (l.map (·.pos))[k]'(by simpa using hk) := by
    simp only [List.getElem_map, hx]
    simpa using hc
  have := (List.Nodup.getElem_inj_iff hn).1 hp
  omega

theorem localSymbolAt_iff (ht : TypedProject D project all objs) (hv : ValidMapOrders ord) {e : Package × SourceFile}
    (he : e ∈ filesOf (sortedValues project)) {n : Nat} {t : Table} (htab : tableFor e.1 (packageSymbol e.1) = some t) (m pos : Nat) :
    (∀ k l, (localIdents D all e.1 e.2)[k]? = some l → l ∈ identsOf ((fileEventsOf D all e.1 e.2).take m) → l.pos = pos →
      localSymbolAt (fileEnv D ord n e.1 t) ((fileEventsOf D all e.1 e.2).take m) pos = some (localName k)) ∧
    ((∀ l ∈ localIdents D all e.1 e.2, l ∈ identsOf ((fileEventsOf D all e.1 e.2).take m) → l.pos ≠ pos) →
      localSymbolAt (fileEnv D ord n e.1 t) ((fileEventsOf D all e.1 e.2).take m) pos = none) := by
  classical
  obtain ⟨hp, hf, _⟩ := mem_project_files ht he
  have hapart : ((identsOf (fileEventsOf D all e.1 e.2)).map (·.pos)).Nodup := (ht.files _ _ hp _ hf).apart
  generalize hes : fileEventsOf D all e.1 e.2 = es at hapart
  have hsplit : identsOf es = identsOf (es.take m) ++ identsOf (es.drop m) := by
    rw [← identsOf_append, List.take_append_drop]
  have hL : localIdents D all e.1 e.2 = (identsOf (es.take m)).filter (fun i => decide (LocalIdent e.1 i)) ++
      (identsOf (es.drop m)).filter (fun i => decide (LocalIdent e.1 i)) := by
    unfold localIdents
    rw [hes, hsplit, List.filter_append]
  have hpos := localDecls_positions ht hv he (n := n) htab (es.take m) (by
    intro i hi; rw [hes, hsplit]; exact List.mem_append_left _ hi)
  have hfind : ∀ q, (localDecls (fileEnv D ord n e.1 t) (es.take m)).findIdx? (fun d => d.1 == q) =
      ((identsOf (es.take m)).filter (fun i => decide (LocalIdent e.1 i))).findIdx? (fun i => i.pos == q) := by
    intro q
    have h1 : ∀ {α : Type} (f : α → Nat) (l : List α), l.findIdx? (fun d => f d == q) = (l.map f).findIdx? (fun x => x == q) := by
      intro α f l; rw [List.findIdx?_map]; rfl
    rw [h1 (fun d : Nat × Obj => d.1), h1 (fun i : Ident => i.pos), hpos]
  have hnd : (localIdents D all e.1 e.2).map (·.pos) |>.Nodup := by
    unfold localIdents
    rw [hes]
    exact hapart.sublist (List.Sublist.map _ List.filter_sublist)
  constructor
  · intro k l hk hl hlp
    have hloc : LocalIdent e.1 l := by
      have := List.mem_of_getElem? hk
      unfold localIdents at this
      simpa using (List.mem_filter.1 this).2
    have hmem : l ∈ (identsOf (es.take m)).filter (fun i => decide (LocalIdent e.1 i)) := List.mem_filter.2 ⟨hl, by simpa using hloc⟩
    obtain ⟨k', hk'⟩ := List.mem_iff_getElem?.1 hmem
    have hk'' : (localIdents D all e.1 e.2)[k']? = some l := by
      rw [hL, List.getElem?_append_left (List.getElem?_eq_some_iff.1 hk').1]; exact hk'
    have hkk : k' = k := by
      have a := findIdx_pos _ hnd k' l hk''
      rw [findIdx_pos _ hnd k l hk] at a
      simpa using a.symm
    subst hkk
    unfold localSymbolAt
    rw [← hlp, hfind, findIdx_pos _ (by rw [hL, List.map_append] at hnd; exact (List.nodup_append.1 hnd).1) k' l hk']
    rfl
  · intro h
    unfold localSymbolAt
    rw [hfind]
    have : ((identsOf (es.take m)).filter (fun i => decide (LocalIdent e.1 i))).findIdx? (fun i => i.pos == pos) = none := by
      rw [List.findIdx?_eq_none_iff]
      intro x hx
      have hxm := List.mem_filter.1 hx
      simpa using h x (by rw [hL]; exact List.mem_append_left _ hx) hxm.1
    rw [this]
    rfl

/-- The references of one event. -/
theorem refsOf_event (hg : Collected' o project all g) (ht : TypedProject D project all objs) (hv : ValidMapOrders ord)
    (horig : ∀ r ∈ objs, ∀ q, (entityOf r).cls ≠ .pkgName q) {e : Package × SourceFile}
    (he : e ∈ filesOf (sortedValues project)) {n : Nat} {t : Table} (htab : tableFor e.1 (packageSymbol e.1) = some t) (k : Nat)
    (ev : Event) (hev : (fileEventsOf D all e.1 e.2)[k]? = some ev) :
    EventRefs D project all e (identsOf ((fileEventsOf D all e.1 e.2).take (k + 1))) ev
      (refsOf (fileEnv D ord n e.1 t) g ((fileEventsOf D all e.1 e.2).take (k + 1)) ev) := by
  obtain ⟨hp, hf, _⟩ := mem_project_files ht he
  have hts := ht.files _ _ hp _ hf
  have hkeys := ht.all_keyed.nodup
  cases ev with
  | qualifier i x imported =>
    simp only [EventRefs, refsOf]
    constructor
    · intro q hq
      rw [hg.packages, GoMap.get_of_mem hkeys hq]
      rfl
    · intro h
      rw [hg.packages]
      cases hq : all.get imported with
      | none => rfl
      | some q => exact absurd (GoMap.mem_of_get hq) (h q)
  | imp uid name pathPos =>
    simp only [EventRefs, refsOf, importOccs]
    show ImportRefs all e.1 uid name pathPos _
    constructor
    · intro imported q hi hq
      have hi' : ((fileEnv D ord n e.1 t).pkgNameOf uid).bind (fileEnv D ord n e.1 t).imports = some imported := hi
      rw [hi']
      simp only [hg.packages, GoMap.get_of_mem hkeys hq, Option.map_some]
      cases name with
      | none => rfl
      | some nm =>
        by_cases hd : nm.name = go!"." ∨ nm.name = go!"_"
        · have : ¬ (nm.name ≠ go!"." ∧ nm.name ≠ go!"_") := by
            rintro ⟨h1, h2⟩
            rcases hd with h | h
            · exact h1 h
            · exact h2 h
          simp only [hd, if_true, Option.toList_some, List.filter_cons, this, decide_false, Bool.false_eq_true, if_false,
            List.filter_nil, List.map_nil]
          rfl
        · have : nm.name ≠ go!"." ∧ nm.name ≠ go!"_" := ⟨fun h => hd (.inl h), fun h => hd (.inr h)⟩
          simp only [hd, if_false, Option.toList_some, List.filter_cons, this, decide_true, if_true,
            List.filter_nil, List.map_cons, List.map_nil, ne_eq, not_false_iff, and_self]
          rfl
    · intro h
      cases hi : (e.1.pkgNameOf uid).bind e.1.imports with
      | none =>
        have hi' : ((fileEnv D ord n e.1 t).pkgNameOf uid).bind (fileEnv D ord n e.1 t).imports = none := hi
        rw [hi']
      | some imported =>
        have hi' : ((fileEnv D ord n e.1 t).pkgNameOf uid).bind (fileEnv D ord n e.1 t).imports = some imported := hi
        rw [hi']
        simp only [hg.packages]
        cases hq : all.get imported with
        | none => rfl
        | some q => exact absurd (GoMap.mem_of_get hq) (h imported q hi)
  | ident u decl =>
    have hu : u ∈ identsOf (fileEventsOf D all e.1 e.2) := mem_identsOf.2 ⟨decl, List.mem_of_getElem? hev⟩
    have hcc := caseClauses_iff (D := D) (ord := ord) hv (n := n) (p := e.1) (t := t) (i := u)
    have huses : (fileEnv D ord n e.1 t).pkg.uses u.uid = e.1.env.uses u.uid := rfl
    have hscopes : (fileEnv D ord n e.1 t).scopes = D.scopes := rfl
    have hspan : identSpan (fileEnv D ord n e.1 t) u = identSpan (sourceEnv D e.1) u := rfl
    obtain ⟨hl1, hl2⟩ := localSymbolAt_iff ht hv he (n := n) htab (k + 1)
      |> fun h => (⟨fun pos => (h pos).1, fun pos => (h pos).2⟩ : _ ∧ _)
    have hcn : ¬ SwitchIdent e.1 u → (fileEnv D ord n e.1 t).caseClauses u.pos = none := by
      intro h
      cases hx : (fileEnv D ord n e.1 t).caseClauses u.pos with
      | none => rfl
      | some x => exact absurd (hcc.1 (by rw [hx]; rfl)) h
    show IdentRefs D project all e _ u _
    refine ⟨?_, ?_, ?_, ?_⟩
    · intro h
      simp only [refsOf]
      unfold refOccs
      rw [huses]
      rcases h with h | h | h
      · rw [if_pos (.inl h)]
      · rw [if_pos (.inr (hcc.2 h))]
      · rw [h]; simp
    · intro hb hs r hr j l hj hl hlp
      rw [(C13_one_identifier (fileEnv D ord n e.1 t) g _ u decl r hb (hcn hs) hr).1 _ (hl1 _ j l hj hl hlp)]
      rw [hspan]
    · intro hb hs r hr hno hnamed
      have hro := hts.looked_up u hu r hr
      obtain ⟨h1, h2⟩ := lookup_named hg ht r hro (hts.no_package_value u hu r hr) (horig r hro)
      obtain ⟨info, hi⟩ := h2 hnamed
      refine ⟨info.symbol, isDocDeprecated info.documentation, ?_, h1 info hi⟩
      rw [(C13_one_identifier (fileEnv D ord n e.1 t) g _ u decl r hb (hcn hs) hr).2.1 (hl2 _ hno) info (by rw [hscopes]; exact hi)]
      rw [hspan]
    · intro hb hs r hr hno hunnamed
      have hro := hts.looked_up u hu r hr
      obtain ⟨h1, _⟩ := lookup_named hg ht r hro (hts.no_package_value u hu r hr) (horig r hro)
      exact (C13_one_identifier (fileEnv D ord n e.1 t) g _ u decl r hb (hcn hs) hr).2.2 (hl2 _ hno)
        (fun info hi => hunnamed _ (h1 info (by rw [hscopes] at hi; exact hi)))

end

/-- **C13** (whole run): the reference occurrences of a document are, in source order, those of the identifiers, package qualifiers and
import specs of its file, as `EventRefs` says: one reference, with the range of the identifier, to the symbol of what the identifier
refers to — of the local declared before, of the entity declared in the project, or of the entity of a loaded dependency — and none for
identifiers that refer to nothing that has a symbol. -/
theorem C13_whole_run (D : Deps) (o : Opts) (ord : MapOrders) (w : Writer) (project all : GoMap Package) (objs : List Obj)
    (ht : TypedProject D project all objs) (hv : ValidMapOrders ord) (horig : ∀ r ∈ objs, ∀ q, (entityOf r).cls ≠ .pkgName q)
    (i : Nat) (e : Package × SourceFile)
    (he : (filesOf (sortedValues project))[i]? = some e) (path : Str) (occs : List Occurrence) (syms : List (SymInfo × List Str))
    (hm : (index D o ord w (.ok (project, all))).messages[i + 1]? = some (.document path occs syms)) :
    ∃ parts : List (List Occurrence), occs.filter (fun x => !x.isDef) = parts.flatten ∧
      parts.length = (fileEventsOf D all e.1 e.2).length ∧
      ∀ k ev os, (fileEventsOf D all e.1 e.2)[k]? = some ev → parts[k]? = some os →
        EventRefs D project all e (identsOf ((fileEventsOf D all e.1 e.2).take (k + 1))) ev os := by
  obtain ⟨docs, g, g', heap, ex, hvp, hg, him, t, st, hlk, htab, hvis, hmsg⟩ := run_document ht hv he hm
  simp only [Message.document.injEq] at hmsg
  obtain ⟨_, rfl, _⟩ := hmsg
  have hE := List.mem_of_getElem? he
  have key := C13_references hvis rfl
  rw [events_eq hg] at key
  refine ⟨_, key, by simp, ?_⟩
  intro k ev os hev hos
  rw [List.getElem?_map] at hos
  obtain ⟨k', hk', rfl⟩ := Option.map_eq_some_iff.1 hos
  rw [List.getElem?_range (List.getElem?_eq_some_iff.1 hev).1] at hk'
  simp only [Option.some.injEq] at hk'
  subst hk'
  simp only [hev]
  exact refsOf_event hg ht hv horig hE htab k ev hev

/-- **C10** (whole run): if an identifier declares something inside of its file only and a later identifier of the file refers to it,
then the document has a definition and a reference for them with the same symbol. -/
theorem C10_whole_run (D : Deps) (o : Opts) (ord : MapOrders) (w : Writer) (project all : GoMap Package) (objs : List Obj)
    (ht : TypedProject D project all objs) (hv : ValidMapOrders ord) (i : Nat) (e : Package × SourceFile)
    (he : (filesOf (sortedValues project))[i]? = some e) (path : Str) (occs : List Occurrence) (syms : List (SymInfo × List Str))
    (hm : (index D o ord w (.ok (project, all))).messages[i + 1]? = some (.document path occs syms))
    (a b c : List Ident) (l u : Ident) (hes : identsOf (fileEventsOf D all e.1 e.2) = a ++ l :: (b ++ u :: c))
    (hl : LocalIdent e.1 l) (hub : u.name ≠ go!"_") (hus : ¬ SwitchIdent e.1 u) (r : Obj) (hr : e.1.env.uses u.uid = some r)
    (hpos : r.self.pos = l.pos) :
    ∃ k, (localIdents D all e.1 e.2)[k]? = some l ∧
      (∃ x ∈ occs, x.isDef = true ∧ x.range = identSpan (sourceEnv D e.1) l ∧ x.symbol = localName k) ∧
      (∃ x ∈ occs, x.isDef = false ∧ x.range = identSpan (sourceEnv D e.1) u ∧ x.symbol = localName k) := by
  classical
  have hlm : l ∈ localIdents D all e.1 e.2 := by
    unfold localIdents
    exact List.mem_filter.2 ⟨by rw [hes]; simp, by simpa using hl⟩
  obtain ⟨k, hk⟩ := List.mem_iff_getElem?.1 hlm
  refine ⟨k, hk, ?_, ?_⟩
  · have h := C09_whole_run D o ord w project all objs ht hv i e he path occs syms hm
    have hmem : (identSpan (sourceEnv D e.1) l, localName k) ∈
        (localIdents D all e.1 e.2).zipIdx.map (fun l => (identSpan (sourceEnv D e.1) l.1, localName l.2)) :=
      List.mem_map.2 ⟨(l, k), by rw [List.mem_zipIdx_iff_getElem?]; exact hk, rfl⟩
    rw [← h] at hmem
    obtain ⟨x, hx, hxe⟩ := List.mem_map.1 hmem
    simp only [Prod.mk.injEq] at hxe
    obtain ⟨h1, h2⟩ := List.mem_filter.1 hx
    simp only [Bool.and_eq_true] at h2
    exact ⟨x, h1, h2.1, hxe.1, hxe.2⟩
  · obtain ⟨docs, g, g', heap, ex, hvp, hg, him, t, st, hlk, htab, hvis, hmsg⟩ := run_document ht hv he hm
    simp only [Message.document.injEq] at hmsg
    obtain ⟨_, rfl, _⟩ := hmsg
    have hE := List.mem_of_getElem? he
    -- the events of the two identifiers
    obtain ⟨du, A, C, hsplit, hbefore⟩ : ∃ du A C, fileEventsOf D all e.1 e.2 = A ++ .ident u du :: C ∧ l ∈ identsOf A := by
      have : ∀ (es : List Event) (as cs : List Ident), identsOf es = as ++ u :: cs →
          ∃ du A C, es = A ++ .ident u du :: C ∧ identsOf A = as := by
        intro es
        induction es with
        | nil => intro as cs h; simp [identsOf] at h
        | cons ev es ih =>
          intro as cs h
          cases ev with
          | qualifier j x q =>
            obtain ⟨du, A, C, h1, h2⟩ := ih as cs h
            exact ⟨du, .qualifier j x q :: A, C, by rw [h1]; rfl, h2⟩
          | imp uid nm pp =>
            obtain ⟨du, A, C, h1, h2⟩ := ih as cs h
            exact ⟨du, .imp uid nm pp :: A, C, by rw [h1]; rfl, h2⟩
          | ident j d =>
            rw [identsOf_cons_ident] at h
            cases as with
            | nil =>
              simp only [List.nil_append, List.cons.injEq] at h
              obtain ⟨rfl, _⟩ := h
              exact ⟨d, [], es, rfl, rfl⟩
            | cons y as =>
              simp only [List.cons_append, List.cons.injEq] at h
              obtain ⟨rfl, h⟩ := h
              obtain ⟨du, A, C, h1, h2⟩ := ih as cs h
              exact ⟨du, .ident j d :: A, C, by rw [h1]; rfl, by rw [identsOf_cons_ident, h2]⟩
      obtain ⟨du, A, C, h1, h2⟩ := this _ (a ++ l :: b) c (by rw [hes]; simp)
      exact ⟨du, A, C, h1, by rw [h2]; simp⟩
    have htake : (fileEventsOf D all e.1 e.2).take (A.length + 1) = A ++ [.ident u du] := by
      rw [hsplit, List.take_append, List.take_of_length_le (Nat.le_succ _)]; simp
    have hsym := (localSymbolAt_iff ht hv hE (n := i + 1) htab (A.length + 1) r.self.pos).1 k l hk
      (by rw [htake, identsOf_append]; exact List.mem_append_left _ hbefore) hpos.symm
    rw [htake] at hsym
    have hcn : (fileEnv D ord (i + 1) e.1 t).caseClauses u.pos = none :=
      caseClauses_none (fun x hx h => hus ⟨x, (hv.implicits _ _).subset hx, h⟩)
    have hone := (C13_one_identifier (fileEnv D ord (i + 1) e.1 t) g (A ++ [.ident u du]) u du r hub hcn hr).1 _ hsym
    refine ⟨⟨identSpan (fileEnv D ord (i + 1) e.1 t) u, localName k, false, none, false⟩, ?_, rfl, rfl, rfl⟩
    rw [hvis.occs]
    refine List.mem_cons_of_mem _ (occsFrom_mem (by rw [events_eq hg]; exact hsplit) _ ?_)
    simp only [occsAt, List.mem_append]
    right
    simp only [refsOf] at hone
    rw [hone]
    exact List.mem_singleton.2 rfl

/-- **C10** (whole run, converse): every reference with a local symbol `local k` is the reference of an identifier that refers to the
position of the `k`-th local declaration of the file. -/
theorem C10_whole_run_converse (D : Deps) (o : Opts) (ord : MapOrders) (w : Writer) (project all : GoMap Package) (objs : List Obj)
    (ht : TypedProject D project all objs) (hv : ValidMapOrders ord) (i : Nat) (e : Package × SourceFile)
    (he : (filesOf (sortedValues project))[i]? = some e) (path : Str) (occs : List Occurrence) (syms : List (SymInfo × List Str))
    (hm : (index D o ord w (.ok (project, all))).messages[i + 1]? = some (.document path occs syms))
    (x : Occurrence) (hx : x ∈ occs) (href : x.isDef = false) (hloc : isLocalSymbol x.symbol = true) :
    ∃ u r k l, u ∈ identsOf (fileEventsOf D all e.1 e.2) ∧ e.1.env.uses u.uid = some r ∧ x.range = identSpan (sourceEnv D e.1) u ∧
      x.symbol = localName k ∧ (localIdents D all e.1 e.2)[k]? = some l ∧ l.pos = r.self.pos := by
  classical
  obtain ⟨docs, g, g', heap, ex, hvp, hg, him, t, st, hlk, htab, hvis, hmsg⟩ := run_document ht hv he hm
  simp only [Message.document.injEq] at hmsg
  obtain ⟨_, rfl, _⟩ := hmsg
  have hE := List.mem_of_getElem? he
  obtain ⟨a, u, du, c, r, k, hes, hr, hrng, hsym, d, hd, hdp⟩ :=
    C10_local_reference_converse hvis (globalSymbols_of hg ht) (packageOccurrence_local _ _) x hx href hloc
  rw [events_eq hg] at hes
  have hpos := localDecls_positions ht hv hE (n := i + 1) htab (a ++ [.ident u du]) (by
    intro j hj
    have e : fileEventsOf D all e.1 e.2 = (a ++ [.ident u du]) ++ c := by rw [hes]; simp
    rw [e, identsOf_append]
    exact List.mem_append_left _ hj)
  have hk : (((identsOf (a ++ [.ident u du])).filter (fun i => decide (LocalIdent e.1 i))).map (·.pos))[k]? = some d.1 := by
    rw [← hpos, List.getElem?_map, hd]; rfl
  rw [List.getElem?_map] at hk
  obtain ⟨l, hl, hlp⟩ := Option.map_eq_some_iff.1 hk
  refine ⟨u, r, k, l, mem_identsOf.2 ⟨du, by rw [hes]; simp⟩, hr, hrng, hsym, ?_, hlp.trans hdp⟩
  unfold localIdents
  have e' : identsOf (fileEventsOf D all e.1 e.2) = identsOf (a ++ [.ident u du]) ++ identsOf c := by
    rw [← identsOf_append, hes]; simp
  rw [e', List.filter_append, List.getElem?_append_left (List.getElem?_eq_some_iff.1 hl).1]
  exact hl

/-- **C12** (whole run): the definition occurrences of a document are, in order, that of the package clause and one for every declaring
identifier of the file, with its range. -/
theorem C12_whole_run (D : Deps) (o : Opts) (ord : MapOrders) (w : Writer) (project all : GoMap Package) (objs : List Obj)
    (ht : TypedProject D project all objs) (hv : ValidMapOrders ord) (i : Nat) (e : Package × SourceFile)
    (he : (filesOf (sortedValues project))[i]? = some e) (path : Str) (occs : List Occurrence) (syms : List (SymInfo × List Str))
    (hm : (index D o ord w (.ok (project, all))).messages[i + 1]? = some (.document path occs syms)) :
    let q := e.1.env.position e.2.name.pos
    (occs.filter (·.isDef)).map (·.range) = ([q.line - 1, q.col - 1, q.col - 1 + e.2.name.name.length] : List Int) ::
      (declaringIdents D all e.1 e.2).map (identSpan (sourceEnv D e.1)) := by
  classical
  intro q
  obtain ⟨rest, hrest, _⟩ := C58_clause_definition D o ord w project all objs ht hv i e he path occs syms hm
  obtain ⟨docs, g, g', heap, ex, hvp, hg, him, t, st, hlk, htab, hvis, hmsg⟩ := run_document ht hv he hm
  simp only [Message.document.injEq] at hmsg
  obtain ⟨_, rfl, _⟩ := hmsg
  have h := C12_definitions hvis rfl
  have hhead : (packageOccurrence e.1 (packageSymbol e.1) e.2).range = ([q.line - 1, q.col - 1, q.col - 1 + e.2.name.name.length] : List Int) := by
    have h0 := hrest
    rw [hvis.occs] at h0
    simp only [List.cons.injEq] at h0
    rw [h0.1]
  rw [h, hhead, events_eq hg]
  congr 1
  have : (identsOf (fileEventsOf D all e.1 e.2)).filter (declares (fileEnv D ord (i + 1) e.1 t)) = declaringIdents D all e.1 e.2 := by
    unfold declaringIdents
    apply List.filter_congr
    intro j _
    rw [Bool.eq_iff_iff, decide_eq_true_iff]
    unfold declares DeclaringIdent
    rw [Bool.and_eq_true, Bool.or_eq_true, decide_eq_true_iff, caseClauses_iff hv]
    rfl
  rw [this]
  rfl

/-- **C17** (whole run): in every document an occurrence carries an enclosing range only if it is the definition of the name of a
function declared in the file, and then the range is that of the declaration; and the definition of a declared function always carries
it. -/
theorem C17_whole_run (D : Deps) (o : Opts) (ord : MapOrders) (w : Writer) (project all : GoMap Package) (objs : List Obj)
    (ht : TypedProject D project all objs) (hv : ValidMapOrders ord) (i : Nat) (e : Package × SourceFile)
    (he : (filesOf (sortedValues project))[i]? = some e) (path : Str) (occs : List Occurrence) (syms : List (SymInfo × List Str))
    (hm : (index D o ord w (.ok (project, all))).messages[i + 1]? = some (.document path occs syms)) :
    (∀ x ∈ occs, ∀ rng, x.enclosing = some rng → ∃ recv n typ body s e' doc,
      .funcDecl recv n typ body s e' doc ∈ e.2.decls ∧ x.isDef = true ∧ x.range = identSpan (sourceEnv D e.1) n ∧
      rng = span (e.1.env.position s) (e.1.env.position e')) ∧
    (∀ recv n typ body s e' doc, .funcDecl recv n typ body s e' doc ∈ e.2.decls → n.name ≠ go!"_" → ¬ SwitchIdent e.1 n →
      (e.1.env.defs n.uid).isSome →
      ∃ x ∈ occs, x.isDef = true ∧ x.range = identSpan (sourceEnv D e.1) n ∧
        x.enclosing = some (span (e.1.env.position s) (e.1.env.position e'))) := by
  obtain ⟨docs, g, g', heap, ex, hvp, hg, him, t, st, hlk, htab, hvis, hmsg⟩ := run_document ht hv he hm
  simp only [Message.document.injEq] at hmsg
  obtain ⟨_, rfl, _⟩ := hmsg
  obtain ⟨h1, h2⟩ := C17_enclosing_range hvis rfl
  refine ⟨h1, ?_⟩
  intro recv n typ body s e' doc hd hb hs hdef
  obtain ⟨d, hd'⟩ := Option.isSome_iff_exists.1 hdef
  exact h2 recv n typ body s e' doc hd hb (caseClauses_none (fun x hx h => hs ⟨x, (hv.implicits _ _).subset hx, h⟩)) d hd'

end Verif
