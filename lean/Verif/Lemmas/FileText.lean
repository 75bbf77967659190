import Verif.Lemmas.IndexText
/-! # UTF-8 texts: documents and messages -/
namespace Verif
open Spec Index

/-! ## The file visitor -/

structure FileEnvText (objectString : Obj → Str) (env : FileEnv) : Prop where
  table : TableText env.pkgTable
  scopes : ∀ q, ∀ x ∈ env.scopes q, ObjDataText x
  defs : ∀ u o, env.pkg.defs u = some o → ObjText o ∧ Text (objectString o)
  uses : ∀ u o, env.pkg.uses u = some o → ObjText o
  implicits : ∀ o ∈ env.implicits, ObjText o

structure FText (objectString : Obj → Str) (env : FileEnv) (st : FState) : Prop where
  symbols : ∀ e ∈ st.locals, Text e.2.symbol
  objs : ∀ e ∈ st.locals, ObjText e.2.obj
  printed : ∀ e ∈ st.locals, Text (objectString e.2.obj) ∨ env.caseClauses e.2.obj.self.pos ≠ none
  occs : ∀ o ∈ st.occs, Text o.symbol
  global : GlobalText st.global

section
variable {os : Obj → Str} {env : FileEnv} (he : FileEnvText os env)

theorem ftext_emit {st : FState} (h : FText os env st) {o : Occurrence} (ho : Text o.symbol) : FText os env (st.emit o) := by
  refine ⟨h.symbols, h.objs, h.printed, ?_, h.global⟩
  intro x hx
  rcases List.mem_append.1 hx with hx | hx
  · exact h.occs x hx
  · simp only [List.mem_singleton] at hx
    exact hx ▸ ho

theorem ftext_local {st st' : FState} {q : Nat} {o : Obj} {s : Str} (h : FText os env st) (ho : ObjText o)
    (hp : Text (os o) ∨ env.caseClauses o.self.pos ≠ none) (hc : st.createNewLocal q o = some (st', s)) : FText os env st' ∧ Text s := by
  unfold FState.createNewLocal at hc
  split at hc
  · simp at hc
  · simp only [Option.some.injEq, Prod.mk.injEq] at hc
    obtain ⟨rfl, rfl⟩ := hc
    have hs := text_localSymbol st.locals.length
    refine ⟨⟨?_, ?_, ?_, h.occs, h.global⟩, hs⟩
    all_goals
      intro e he
      rcases List.mem_append.1 he with he | he
    · exact h.symbols e he
    · simp only [List.mem_singleton] at he
      rw [he]; exact hs
    · exact h.objs e he
    · simp only [List.mem_singleton] at he
      rw [he]; exact ho
    · exact h.printed e he
    · simp only [List.mem_singleton] at he
      rw [he]; exact hp

include he

theorem visitDef_text {i : Ident} {d : Obj} (hd : ObjText d) (hp : Text (os d)) {st st' : FState} (h : FText os env st)
    (hv : visitDef env i d st = some st') : FText os env st' := by
  unfold visitDef at hv
  obtain ⟨⟨st1, s⟩, h1, h2⟩ := Option.map_eq_some_iff.1 hv
  rw [← h2]
  split at h1
  · rename_i x hx
    simp only [Option.some.injEq, Prod.mk.injEq] at h1
    obtain ⟨rfl, rfl⟩ := h1
    exact ftext_emit h (tableText_getSymbol he.table hx)
  · split at h1
    · rename_i x hx
      simp only [Option.some.injEq, Prod.mk.injEq] at h1
      obtain ⟨rfl, rfl⟩ := h1
      unfold Global.getSymbol at hx
      obtain ⟨i', h3, rfl⟩ := Option.map_eq_some_iff.1 hx
      exact ftext_emit h (getSymbolInformation_text h.global h3).symbol
    · have := ftext_local h hd (.inl hp) h1
      exact ftext_emit this.1 this.2

theorem visitRef_text {i : Ident} {r : Obj} (hr : ObjText r) {st st' : FState} (h : FText os env st)
    (hv : visitRef env i r st = some st') : FText os env st' := by
  unfold visitRef at hv
  split at hv
  · rename_i l hl
    rw [← Option.some.inj hv]
    exact ftext_emit h (h.symbols _ (mem_of_lookup hl))
  · have hg := getSymbolOfObject_text he.scopes h.global hr
    have h' : FText os env { st with global := (st.global.getSymbolOfObject env.scopes r).1 } := ⟨h.symbols, h.objs, h.printed, h.occs, hg.1⟩
    dsimp only at hv
    split at hv
    · simp at hv
    · rw [← Option.some.inj hv]; exact h'
    · rw [← Option.some.inj hv]; exact h'
    · rename_i info hi
      rw [← Option.some.inj hv]
      exact ftext_emit h' (hg.2 info hi).symbol

theorem visitIdent_text {i : Ident} {st st' : FState} (h : FText os env st) (hv : visitIdent env i st = some st') : FText os env st' := by
  unfold visitIdent at hv
  split at hv
  · rw [← Option.some.inj hv]; exact h
  · split at hv
    · rename_i obj ho
      obtain ⟨⟨st1, s⟩, h1, h2⟩ := Option.map_eq_some_iff.1 hv
      rw [← h2]
      have hm : obj ∈ env.implicits := by
        unfold FileEnv.caseClauses at ho
        exact List.mem_reverse.1 (List.mem_of_find?_eq_some ho)
      have hpos : obj.self.pos = i.pos := by
        unfold FileEnv.caseClauses at ho
        have := List.find?_some ho
        simpa using this
      have := ftext_local h (he.implicits obj hm) (.inr (by rw [hpos, ho]; simp)) h1
      exact ftext_emit this.1 this.2
    · dsimp only at hv
      obtain ⟨st1, h1, h2⟩ := Option.bind_eq_some_iff.1 hv
      have hst1 : FText os env st1 := by
        split at h1
        · rename_i d hd
          exact visitDef_text he (he.defs _ _ hd).1 (he.defs _ _ hd).2 h h1
        · rw [← Option.some.inj h1]; exact h
      split at h2
      · rename_i r hr
        exact visitRef_text he (he.uses _ _ hr) hst1 h2
      · rw [← Option.some.inj h2]; exact hst1

theorem visitIdents_text {is : List Ident} {st st' : FState} (h : FText os env st) (hv : visitIdents env is st = some st') : FText os env st' := by
  induction is generalizing st with
  | nil =>
    rw [visitIdents] at hv
    rw [← Option.some.inj hv]; exact h
  | cons i is ih =>
    rw [visitIdents] at hv
    obtain ⟨st1, h1, h2⟩ := Option.bind_eq_some_iff.1 hv
    exact ih (visitIdent_text he h h1) h2

omit he in
theorem pkgSymbol_text {st : FState} (h : FText os env st) {q s : Str} (hs : st.global.getPkgSymbol q = some s) : Text s :=
  h.global.pkgSymbols _ (mem_of_lookup hs)

omit he in
theorem visitImport_text {uid : Nat} {name : Option Ident} {pos : Nat} {st : FState} (h : FText os env st) :
    FText os env (visitImport env uid name pos st) := by
  unfold visitImport
  split
  · exact h
  · rename_i imported _
    dsimp only
    have key : ∀ st : FState, FText os env st → FText os env (emitImportReference env pos imported st) := by
      intro st hst
      unfold emitImportReference
      split
      · exact hst
      · rename_i sym hs
        exact ftext_emit hst (pkgSymbol_text hst hs)
    apply key
    split
    · exact h
    · split
      · split
        · rename_i sym hs
          exact ftext_emit h (pkgSymbol_text h hs)
        · exact h
      · exact h

omit he in
theorem fileWalkList_text {ns : List Node} (h : ∀ n ∈ ns, ∀ st st', FText os env st → fileWalk env n st = some st' → FText os env st') :
    ∀ {st st' : FState}, FText os env st → fileWalkList env ns st = some st' → FText os env st' := by
  induction ns with
  | nil => intro st st' hst hv; rw [fileWalkList] at hv; rw [← Option.some.inj hv]; exact hst
  | cons n ns ih =>
    intro st st' hst hv
    rw [fileWalkList] at hv
    obtain ⟨st1, h1, h2⟩ := Option.bind_eq_some_iff.1 hv
    exact ih (fun x hx => h x (List.mem_cons_of_mem _ hx)) (h n (by simp) st st1 hst h1) h2

theorem fileWalk_text (n : Node) : ∀ st st', FText os env st → fileWalk env n st = some st' → FText os env st' := by
  induction n using nodeInduction with
  | _ n ih =>
    intro st st' hst hv
    have hlist : ∀ ns : List Node, (∀ x ∈ ns, x ∈ children n) → ∀ {st st' : FState}, FText os env st → fileWalkList env ns st = some st' → FText os env st' :=
      fun ns hns => fileWalkList_text fun x hx => ih x (hns x hx)
    cases n
    case importSpec => rw [fileWalk] at hv; rw [← Option.some.inj hv]; exact visitImport_text hst
    case selector x sel =>
      rw [fileWalk] at hv
      split at hv
      · rename_i i o imported hsel
        split at hv
        · rw [← Option.some.inj hv]; exact hst
        · rename_i sym hs
          exact visitIdent_text he (ftext_emit hst (pkgSymbol_text hst hs)) hv
      · obtain ⟨st1, h1, h2⟩ := Option.bind_eq_some_iff.1 hv
        exact visitIdent_text he (ih x (by simp [children]) _ _ hst h1) h2
    case funcDecl recv name typ body pos endPos doc =>
      rw [fileWalk] at hv
      have hst0 : FText os env { st with cur := some (name.uid, pos, endPos) } := ⟨hst.symbols, hst.objs, hst.printed, hst.occs, hst.global⟩
      obtain ⟨st1, h1, h2⟩ := Option.bind_eq_some_iff.1 hv
      obtain ⟨st2, h3, h4⟩ := Option.bind_eq_some_iff.1 h1
      obtain ⟨st3, h5, h6⟩ := Option.bind_eq_some_iff.1 h2
      exact hlist body (fun x hx => by simp [children, hx]) (ih typ (by simp [children]) _ _
        (visitIdent_text he (hlist recv (fun x hx => by simp [children, hx]) hst0 h3) h4) h5) h6
    case ident i => rw [fileWalk] at hv; exact visitIdent_text he hst hv
    case file a b => rw [fileWalk] at hv; exact hlist _ (fun _ hx => hx) hst hv
    case star x => rw [fileWalk] at hv; exact ih x (by simp [children]) _ _ hst hv
    case paren x => rw [fileWalk] at hv; exact ih x (by simp [children]) _ _ hst hv
    case unary x => rw [fileWalk] at hv; exact ih x (by simp [children]) _ _ hst hv
    case chanT x => rw [fileWalk] at hv; exact ih x (by simp [children]) _ _ hst hv
    case structT a => rw [fileWalk] at hv; exact hlist _ (fun _ hx => hx) hst hv
    case ifaceT a => rw [fileWalk] at hv; exact hlist _ (fun _ hx => hx) hst hv
    case block a => rw [fileWalk] at hv; exact hlist _ (fun _ hx => hx) hst hv
    case genDecl a b c => rw [fileWalk] at hv; exact hlist _ (fun _ hx => hx) hst hv
    case other a => rw [fileWalk] at hv; exact hlist _ (fun _ hx => hx) hst hv
    case badDecl => rw [fileWalk] at hv; rw [← Option.some.inj hv]; exact hst
    case index x is =>
      rw [fileWalk] at hv
      obtain ⟨st1, h1, h2⟩ := Option.bind_eq_some_iff.1 hv
      exact hlist is (fun y hy => by simp [children, hy]) (ih x (by simp [children]) _ _ hst h1) h2
    case arrayT l e =>
      rw [fileWalk] at hv
      obtain ⟨st1, h1, h2⟩ := Option.bind_eq_some_iff.1 hv
      exact ih e (by simp [children]) _ _ (hlist l (fun y hy => by simp [children, hy]) hst h1) h2
    case mapT k v =>
      rw [fileWalk] at hv
      obtain ⟨st1, h1, h2⟩ := Option.bind_eq_some_iff.1 hv
      exact ih v (by simp [children]) _ _ (ih k (by simp [children]) _ _ hst h1) h2
    case funcT a b c =>
      rw [fileWalk] at hv
      obtain ⟨st1, h1, h2⟩ := Option.bind_eq_some_iff.1 hv
      obtain ⟨st2, h3, h4⟩ := Option.bind_eq_some_iff.1 h1
      exact hlist c (fun y hy => by simp [children, hy]) (hlist b (fun y hy => by simp [children, hy])
        (hlist a (fun y hy => by simp [children, hy]) hst h3) h4) h2
    case field pos names typ a b =>
      rw [fileWalk] at hv
      obtain ⟨st1, h1, h2⟩ := Option.bind_eq_some_iff.1 hv
      exact ih typ (by simp [children]) _ _ (visitIdents_text he hst h1) h2
    case typeSpec name tps typ doc =>
      rw [fileWalk] at hv
      obtain ⟨st1, h1, h2⟩ := Option.bind_eq_some_iff.1 hv
      obtain ⟨st2, h3, h4⟩ := Option.bind_eq_some_iff.1 h1
      exact ih typ (by simp [children]) _ _ (hlist tps (fun y hy => by simp [children, hy]) (visitIdent_text he hst h3) h4) h2
    case valueSpec pos names typ values a b =>
      rw [fileWalk] at hv
      obtain ⟨st1, h1, h2⟩ := Option.bind_eq_some_iff.1 hv
      obtain ⟨st2, h3, h4⟩ := Option.bind_eq_some_iff.1 h1
      exact hlist values (fun y hy => by simp [children, hy]) (hlist typ (fun y hy => by simp [children, hy]) (visitIdents_text he hst h3) h4) h2

end

/-! ## Messages -/

def MessageText : Message → Prop
  | .metadata m => Text m.toolName ∧ Text m.toolVersion ∧ (∀ a ∈ m.arguments, Text a) ∧ Text m.projectRoot
  | .document path occs syms => Text path ∧ (∀ o ∈ occs, Text o.symbol) ∧ ∀ s ∈ syms, InfoText s.1 ∧ ∀ r ∈ s.2, Text r
  | .external sym rels => Text sym ∧ ∀ r ∈ rels, Text r

theorem metadata_text {D : Deps} {o : Opts} (hD : SurroundingText D o) : MessageText (.metadata (metadata D o)) := by
  refine ⟨text_ascii' rfl, hD.toolVersion, hD.arguments, ?_⟩
  unfold metadata projectRoot
  dsimp only
  split
  · exact text_ascii' rfl
  · exact text_append (text_ascii' rfl) (hD.url _ hD.root)

theorem valid_nil : Pb.validUtf8 [] = true := valid_of_text (s := []) text_nil

theorem valid_go : Pb.validUtf8 (Pb.bytes go!"go") = true := valid_of_text (text_ascii' rfl)

theorem occurrence_valid {o : Occurrence} (h : Text o.symbol) : ∀ t ∈ (Pb.occurrence o).strings, Pb.validUtf8 t = true := by
  intro t ht
  unfold Pb.occurrence Pb.Occurrence.strings at ht
  simp only [List.nil_append, List.mem_cons] at ht
  rcases ht with rfl | ht
  · exact valid_of_text h
  · split at ht
    · simp only [Pb.deprecatedDiagnostics, Pb.Diagnostic.strings, List.flatMap_cons, List.flatMap_nil, List.append_nil, List.mem_cons,
        List.not_mem_nil, or_false] at ht
      rcases ht with rfl | rfl | rfl
      · exact valid_nil
      · exact valid_of_text (text_ascii' rfl)
      · exact valid_nil
    · simp at ht

theorem info_valid {s : SymInfo × List Str} (h : InfoText s.1) (hr : ∀ r ∈ s.2, Text r) :
    ∀ t ∈ (Pb.symbolInformation s).strings, Pb.validUtf8 t = true := by
  intro t ht
  unfold Pb.symbolInformation Pb.SymbolInformation.strings at ht
  simp only [List.mem_append, List.mem_cons, List.not_mem_nil, or_false, List.mem_map, List.mem_flatMap] at ht
  rcases ht with (((rfl | rfl | rfl) | ⟨d, hd, rfl⟩) | ⟨r, ⟨x, hx, rfl⟩, rfl⟩) | ⟨sg, hsg, ht⟩
  · exact valid_of_text h.symbol
  · exact valid_of_text h.displayName
  · exact valid_nil
  · exact valid_of_text (h.documentation d hd)
  · exact valid_of_text (hr x hx)
  · simp only [Option.mem_toList, Option.map_eq_some_iff] at hsg
    obtain ⟨x, hx, rfl⟩ := hsg
    simp only [Pb.Signature.strings, List.mem_cons, List.not_mem_nil, or_false] at ht
    rcases ht with rfl | rfl
    · exact valid_go
    · exact valid_of_text (h.signature x hx)

/-- Messages of UTF-8 texts can be marshalled. -/
theorem message_valid {m : Message} (h : MessageText m) : ∀ t ∈ (Pb.indexOf m).strings, Pb.validUtf8 t = true := by
  intro t ht
  cases m with
  | metadata m =>
    obtain ⟨h1, h2, h3, h4⟩ := h
    simp only [Pb.indexOf, Pb.metadata, Pb.Index.strings, Pb.Metadata.strings, Pb.ToolInfo.strings, Option.toList_some, List.flatMap_cons,
      List.flatMap_nil, List.append_nil, List.mem_cons, List.mem_append, List.not_mem_nil, or_false, List.mem_map] at ht
    rcases ht with rfl | (rfl | rfl) | ⟨a, ha, rfl⟩
    · exact valid_of_text h4
    · exact valid_of_text h1
    · exact valid_of_text h2
    · exact valid_of_text (h3 a ha)
  | document path occs syms =>
    obtain ⟨h1, h2, h3⟩ := h
    simp only [Pb.indexOf, Pb.document, Pb.Index.strings, Pb.Document.strings, Option.toList_none, List.flatMap_cons,
      List.flatMap_nil, List.nil_append, List.append_nil, List.mem_append, List.mem_cons, List.not_mem_nil, or_false, List.mem_flatMap, List.mem_map] at ht
    rcases ht with ((rfl | rfl | rfl) | ⟨o, ⟨x, hx, rfl⟩, ht⟩) | ⟨s, ⟨x, hx, rfl⟩, ht⟩
    · exact valid_of_text h1
    · exact valid_go
    · exact valid_nil
    · exact occurrence_valid (h2 x hx) t ht
    · exact info_valid (h3 x hx).1 (h3 x hx).2 t ht
  | external sym rels =>
    obtain ⟨h1, h2⟩ := h
    simp only [Pb.indexOf, Pb.external, Pb.Index.strings, Pb.SymbolInformation.strings, Option.toList_none, List.flatMap_cons,
      List.flatMap_nil, List.nil_append, List.append_nil, List.mem_append, List.mem_cons, List.not_mem_nil, or_false, List.mem_map] at ht
    rcases ht with (rfl | rfl | rfl) | ⟨r, ⟨x, hx, rfl⟩, rfl⟩
    · exact valid_of_text h1
    · exact valid_nil
    · exact valid_nil
    · exact valid_of_text (h2 x hx)

/-! ## Indexing -/

theorem Spec.PackageText.env {D : Deps} {p : Package} (h : PackageText D p) : EnvText p.env :=
  ⟨h.path, h.modulePath, h.moduleVersion, fun u o ho => (h.signature u o ho).1, h.anonKey⟩

def DocsText (docs : Docs) : Prop := ∀ e ∈ docs, Text e.2.relativePath ∧ ∀ o, e.2.pkgOcc = some o → Text o.symbol

theorem docsText_set {docs : Docs} (h : DocsText docs) {k : Str} {d : Doc} (h1 : Text d.relativePath) (h2 : ∀ o, d.pkgOcc = some o → Text o.symbol) :
    DocsText (docs.set k d) := by
  intro e he
  rcases List.mem_cons.1 he with rfl | he
  · exact ⟨h1, h2⟩
  · exact h e (List.mem_filter.1 he).1

theorem docsText_get {docs : Docs} (h : DocsText docs) {k : Str} {d : Doc} (hd : docs.get k = some d) :
    Text d.relativePath ∧ ∀ o, d.pkgOcc = some o → Text o.symbol := h (k, d) (mem_of_lookup hd)

theorem newDocs_text {root : Str} {files : List SourceFile} (hf : ∀ f ∈ files, Text f.fileName) {docs : Docs} (h : DocsText docs) :
    DocsText (newDocs root files docs) := by
  unfold newDocs
  induction files generalizing docs with
  | nil => exact h
  | cons f fs ih =>
    refine ih (fun x hx => hf x (List.mem_cons_of_mem _ hx)) (docsText_set h ?_ (by simp))
    cases e : Filepath.rel root f.fileName with
    | none => exact text_nil
    | some r => exact text_rel (hf f (by simp)) e

theorem setOccurrences_text {p : Package} {sym : Str} (hs : Text sym) {files : List SourceFile} {docs : Docs} (h : DocsText docs) :
    DocsText (setOccurrences p sym files docs) := by
  unfold setOccurrences
  induction files generalizing docs with
  | nil => exact h
  | cons f fs ih =>
    refine ih ?_
    unfold setOccurrence
    split
    · exact h
    · rename_i d hd
      refine docsText_set h (docsText_get h hd).1 ?_
      simp only [Option.some.injEq]
      rintro o rfl
      exact hs

theorem globalText_add {g : Global} (h : GlobalText g) {path : Str} {r : PkgRecord} (hm : ModuleText r.module) (ht : TableText r.table) :
    GlobalText (g.add path r) := by
  refine ⟨?_, ?_, h.pkgSymbols, h.composer⟩
  all_goals
    intro e he
    rcases List.mem_cons.1 he with rfl | he
  · exact hm
  · exact h.modules e he
  · exact ht
  · exact h.tables e he

theorem moduleText {D : Deps} {p : Package} (h : PackageText D p) : ModuleText (some p.env.module) := by
  intro x hx
  rw [← Option.some.inj hx]
  exact ⟨h.modulePath, h.moduleVersion⟩

theorem setPkgSymbols_text {D : Deps} {ps : List Package} (hp : ∀ p ∈ ps, PackageText D p) {g : Global} (h : GlobalText g) :
    GlobalText (setPkgSymbols ps g) := by
  induction ps generalizing g with
  | nil => exact h
  | cons p ps ih =>
    rw [setPkgSymbols]
    have hpp := hp p (by simp)
    refine ih (fun x hx => hp x (List.mem_cons_of_mem _ hx)) ⟨?_, ?_, ?_, h.composer⟩
    all_goals
      intro e he
      rcases List.mem_cons.1 he with rfl | he
    · exact moduleText hpp
    · exact h.modules e he
    · intro e he; simp at he
    · exact h.tables e he
    · refine text_formatSymbol hpp.modulePath hpp.moduleVersion ?_
      simp only [List.mem_singleton]
      rintro d rfl
      exact hpp.path
    · exact h.pkgSymbols e he

theorem packageInfo_text {D : Deps} {p : Package} (h : PackageText D p) {sym : Str} (hs : Text sym) : InfoText (packageInfo p sym) := by
  refine ⟨hs, h.name, ?_, ?_⟩
  · intro d hd
    unfold packageInfo findPackageDocs at hd
    simp only [List.mem_filterMap] at hd
    obtain ⟨f, hf, hfd⟩ := hd
    exact h.fileDoc f (List.mem_filter.1 ((sortBy_perm _ _).subset hf)).1 d hfd
  · simp only [packageInfo, Option.some.injEq]
    rintro t rfl
    exact text_append (text_ascii' rfl) h.name

theorem visitPackages_text {D : Deps} {root : Str} {ps : List Package} (hp : ∀ p ∈ ps, PackageText D p) {s s' : Docs × Global}
    (hd : DocsText s.1) (hg : GlobalText s.2) (h : visitPackages root ps s = some s') : DocsText s'.1 ∧ GlobalText s'.2 := by
  induction ps generalizing s with
  | nil => exact (Option.some.inj h) ▸ ⟨hd, hg⟩
  | cons p ps ih =>
    rw [visitPackages] at h
    split at h
    · simp at h
    · rename_i s1 h1
      have hpp := hp p (by simp)
      have key : DocsText s1.1 ∧ GlobalText s1.2 := by
        unfold visitPackage at h1
        split at h1
        · simp at h1
        · rename_i docs table hv
          unfold visitSyntaxOf at hv
          obtain ⟨t, ht, he⟩ := Option.map_eq_some_iff.1 hv
          simp only [Prod.mk.injEq] at he
          obtain ⟨rfl, rfl⟩ := he
          have htab : TableText t := visitPackageSyntax_text hpp.env (fs := p.files.map SourceFile.node) (fun f hf => by
            obtain ⟨x, hx, rfl⟩ := List.mem_map.1 hf
            exact hpp.syntaxTree x hx) (by intro e he; simp at he) ht
          have hdocs := newDocs_text (root := root) hpp.fileName hd
          split at h1
          · rw [← Option.some.inj h1]
            exact ⟨hdocs, globalText_add hg (moduleText hpp) htab⟩
          · have hsym : Text ((s.2.getPkgSymbol p.path).getD []) := by
              cases e : s.2.getPkgSymbol p.path with
              | none => exact text_nil
              | some x => exact hg.pkgSymbols _ (mem_of_lookup e)
            rw [← Option.some.inj h1]
            exact ⟨setOccurrences_text hsym hdocs, globalText_add hg (moduleText hpp) (tableText_set htab (packageInfo_text hpp hsym))⟩
      exact ih (fun x hx => hp x (List.mem_cons_of_mem _ hx)) key.1 key.2 h

section
variable {D : Deps} {o : Opts} (hD : SurroundingText D o) {ord : MapOrders} (hv : ValidMapOrders ord)
include hD hv

theorem visitFile_text {heap : Impl.Heap} (hh : HeapText heap) {n : Nat} {p : Package} (hp : PackageText D p) {f : SourceFile} {d : Doc}
    (hd : Text d.relativePath ∧ ∀ o, d.pkgOcc = some o → Text o.symbol) {g g' : Global} (hg : GlobalText g) {m : Message}
    (h : visitFile D ord heap n p f d g = some (m, g')) : MessageText m ∧ GlobalText g' := by
  unfold visitFile at h
  split at h
  · simp at h
  · rename_i r hr
    have hrt := hg.tables _ (mem_of_lookup hr)
    dsimp only at h
    split at h
    · simp at h
    · rename_i st hst
      simp only [Option.some.injEq, Prod.mk.injEq] at h
      obtain ⟨rfl, rfl⟩ := h
      have he : FileEnvText D.objectString (fileEnv D ord n p r.table) :=
        ⟨hrt, hD.scopes, fun u x hx => ⟨hp.defs u x hx, (hp.signature u x hx).2⟩, hp.uses,
          fun x hx => hp.implicits x ((hv.implicits n _).subset hx)⟩
      have hocc : Text (d.pkgOcc.getD zeroOccurrence).symbol := by
        cases e : d.pkgOcc with
        | none => exact text_nil
        | some x => exact hd.2 x e
      have hft := fileWalk_text he f.node (newFileVisitor (d.pkgOcc.getD zeroOccurrence) g) st ⟨by simp [newFileVisitor], by simp [newFileVisitor], by simp [newFileVisitor], by
        simp only [newFileVisitor, List.mem_singleton]; rintro x rfl; exact hocc, hg⟩ hst
      refine ⟨⟨hd.1, hft.occs, ?_⟩, hft.global⟩
      rintro ⟨s, rels⟩ hs
      obtain ⟨h1, h2⟩ := List.of_mem_zip hs
      refine ⟨?_, ?_⟩
      · unfold toScipDocument Table.symbolsForFile at h1
        simp only [List.mem_append, List.mem_map, List.mem_filter] at h1
        rcases h1 with ⟨e, ⟨he', _⟩, rfl⟩ | ⟨e, he', rfl⟩
        · exact hrt e ((hv.table n _).subset he')
        · have hm := (hv.locals n _).subset he'
          have hobj := hft.objs e hm
          refine ⟨hft.symbols e hm, hobj.self.name, by simp [localInfo], ?_⟩
          intro t ht
          unfold localInfo at ht
          dsimp only at ht
          split at ht
          · simp at ht
          · rename_i hc
            have htxt : Text (signatureText D.objectString e.2) := by
              unfold signatureText
              split
              · rename_i q hq
                exact text_append (text_append (text_ascii' rfl) hobj.self.name) (text_cons (by decide) (hobj.self.imported _ hq))
              · exact (hft.printed e hm).resolve_right (by rw [hc]; simp)
            split at ht
            · simp at ht
            · rw [← Option.some.inj ht]; exact htxt
      · intro x hx
        unfold documentRelationships at h2
        simp only [List.mem_append, List.mem_map] at h2
        rcases h2 with ⟨e, _, rfl⟩ | ⟨e, _, rfl⟩
        · exact hh _ x hx
        · simp at hx

theorem writeDocuments_text {w : Writer} {heap : Impl.Heap} (hh : HeapText heap) {docs : Docs} (hdocs : DocsText docs)
    {fs : List (Package × SourceFile)} (hf : ∀ e ∈ fs, PackageText D e.1) {g : Global} (hg : GlobalText g) {done : List Message}
    (hdone : ∀ m ∈ done, MessageText m) : ∀ m ∈ (writeDocuments D ord w heap docs fs g done).messages, MessageText m := by
  induction fs generalizing g done with
  | nil => exact hdone
  | cons e fs ih =>
    obtain ⟨p, f⟩ := e
    have ih := @ih (fun x hx => hf x (List.mem_cons_of_mem _ hx))
    rw [writeDocuments]
    split
    · exact ih hg hdone
    · rename_i d hd
      split
      · exact hdone
      · rename_i m g1 hm
        have := visitFile_text hD hv hh (hf _ List.mem_cons_self) (docsText_get hdocs hd) hg hm
        have hdone' : ∀ x ∈ done ++ [m], MessageText x := by
          intro x hx
          rcases List.mem_append.1 hx with hx | hx
          · exact hdone x hx
          · simp only [List.mem_singleton] at hx
            exact hx ▸ this.1
        split
        · exact hdone'
        · exact ih this.2 hdone'

omit hD hv in
theorem writeExternals_text {w : Writer} {ms done : List Message} (hm : ∀ m ∈ ms, MessageText m) (hd : ∀ m ∈ done, MessageText m) :
    ∀ m ∈ (writeExternals w ms done).messages, MessageText m := by
  induction ms generalizing done with
  | nil => exact hd
  | cons m ms ih =>
    have hd' : ∀ x ∈ done ++ [m], MessageText x := by
      intro x hx
      rcases List.mem_append.1 hx with hx | hx
      · exact hd x hx
      · simp only [List.mem_singleton] at hx
        exact hx ▸ hm m (by simp)
    rw [writeExternals]
    split
    · exact hd'
    · exact ih (fun x hx => hm x (List.mem_cons_of_mem _ hx)) hd'

omit hD in
theorem implPkg_text {p : Package} (hp : PackageText D p) : ImplPkgText (p.impl ord) := by
  refine ⟨moduleText hp, ?_, ?_⟩
  · intro ds hds t ht
    unfold Package.impl at hds
    simp only [Option.map_eq_some_iff] at hds
    obtain ⟨l, hl, rfl⟩ := hds
    exact hp.types l (.inl hl) t ((hv.defs _ _).subset ht)
  · intro ds hds t ht
    exact hp.types ds (.inr hds) t ht

omit hD in
theorem mem_sortedValues' {m : GoMap Package} {p : Package} (h : p ∈ sortedValues m) : p ∈ m.map (·.2) := by
  unfold sortedValues at h
  simp only [List.mem_filterMap] at h
  obtain ⟨k, _, hk⟩ := h
  exact List.mem_map.2 ⟨_, mem_of_lookup hk, rfl⟩

theorem index_text {w : Writer} {project all : GoMap Package} (hproject : ∀ p ∈ project.map (·.2), PackageText D p)
    (hall : ∀ p ∈ all.map (·.2), PackageText D p) : ∀ m ∈ (index D o ord w (.ok (project, all))).messages, MessageText m := by
  have hmeta := metadata_text hD
  have hm1 : ∀ m ∈ [Message.metadata (metadata D o)], MessageText m := by
    simp only [List.mem_singleton]; rintro m rfl; exact hmeta
  unfold index
  dsimp only
  split
  · exact hm1
  · split
    · exact hm1
    · rename_i docs g hv'
      have hvp := visitPackages_text (fun p hp => hproject p (mem_sortedValues' (hv := hv) hp)) (s := (_, _)) (by intro e he; simp at he)
        (setPkgSymbols_text (D := D) (fun p hp => hall p ((hv.all _).subset hp))
          (g := newGlobal o) ⟨by simp [newGlobal], by simp [newGlobal], by simp [newGlobal], ⟨hD.root, hD.version, by simp [newGlobal, newComposer]⟩⟩) hv'
      split
      · exact hm1
      · rename_i g1 heap externals hi
        have himpl : GlobalText g1 ∧ HeapText heap ∧ ∀ m ∈ externals, MessageText m := by
          unfold implementations at hi
          split at hi
          · simp only [Option.some.injEq, Prod.mk.injEq] at hi
            obtain ⟨rfl, rfl, rfl⟩ := hi
            exact ⟨hvp.2, by intro r x hx; simp at hx, by simp⟩
          · obtain ⟨r, hr, he⟩ := Option.map_eq_some_iff.1 hi
            simp only [Prod.mk.injEq] at he
            obtain ⟨rfl, rfl, rfl⟩ := he
            obtain ⟨h1, h2, h3⟩ := addImplementations_text hD.scopes hvp.2 (h := fun _ => []) (by intro r x hx; simp at hx) (fun p hp => by
                obtain ⟨q, hq, rfl⟩ := List.mem_map.1 hp
                exact implPkg_text hv (hproject q ((hv.extractProject _).subset hq))) (fun p hp => by
                obtain ⟨q, hq, rfl⟩ := List.mem_map.1 hp
                exact implPkg_text hv (hall q ((hv.extractAll _).subset hq))) hv.impls hr
            refine ⟨h1, h2, fun m hm => ?_⟩
            obtain ⟨s, hs, rfl⟩ := List.mem_map.1 hm
            exact ⟨h3 s hs, h2 _⟩
        have hdoc := writeDocuments_text hD hv (w := w) himpl.2.1 hvp.1 (fs := filesOf (sortedValues project)) (fun e he => by
          unfold filesOf at he
          obtain ⟨p, hp, hf⟩ := List.mem_flatMap.1 he
          obtain ⟨f, _, rfl⟩ := List.mem_map.1 hf
          exact hproject p (mem_sortedValues' (hv := hv) hp)) himpl.1 hm1
        split
        · rename_i done hdone
          rw [hdone] at hdoc
          exact writeExternals_text himpl.2.2 hdoc
        · exact hdoc

end

end Verif
