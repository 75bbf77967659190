import Verif.Lemmas.Log
import Verif.Props.ContentDetermined
import Verif.Props.Cmd
/-! # C97: nothing is left out of a document without being reported -/
namespace Verif
open Spec Index Log Cmd

mutual

theorem mentions_congr {env env' : FileEnv} (h : env'.pkg = env.pkg) (known : Str → Bool) : ∀ n : Node, mentions env' known n = mentions env known n
  | .importSpec _ _ _ => by simp only [mentions]
  | .selector x sel => by
    have hq : packageQualifier env' x = packageQualifier env x := by cases x <;> simp only [packageQualifier, h]
    simp only [mentions, hq, mentions_congr h known x]
  | .funcDecl recv name typ body pos endPos _ => by
    simp only [mentions, mentionsList_congr h known recv, mentions_congr h known typ, mentionsList_congr h known body]
  | .file _ decls => by simp only [mentions, mentionsList_congr h known decls]
  | .ident _ => by simp only [mentions]
  | .star x => by simp only [mentions, mentions_congr h known x]
  | .paren x => by simp only [mentions, mentions_congr h known x]
  | .index x is => by simp only [mentions, mentions_congr h known x, mentionsList_congr h known is]
  | .unary x => by simp only [mentions, mentions_congr h known x]
  | .arrayT len elt => by simp only [mentions, mentionsList_congr h known len, mentions_congr h known elt]
  | .mapT k v => by simp only [mentions, mentions_congr h known k, mentions_congr h known v]
  | .chanT v => by simp only [mentions, mentions_congr h known v]
  | .funcT tps ps rs => by simp only [mentions, mentionsList_congr h known tps, mentionsList_congr h known ps, mentionsList_congr h known rs]
  | .structT fs => by simp only [mentions, mentionsList_congr h known fs]
  | .ifaceT ms => by simp only [mentions, mentionsList_congr h known ms]
  | .field _ names typ _ _ => by simp only [mentions, mentions_congr h known typ]
  | .block ss => by simp only [mentions, mentionsList_congr h known ss]
  | .typeSpec name tps typ _ => by simp only [mentions, mentionsList_congr h known tps, mentions_congr h known typ]
  | .valueSpec _ names typ values _ _ => by simp only [mentions, mentionsList_congr h known typ, mentionsList_congr h known values]
  | .genDecl _ specs _ => by simp only [mentions, mentionsList_congr h known specs]
  | .badDecl => by simp only [mentions]
  | .other cs => by simp only [mentions, mentionsList_congr h known cs]

theorem mentionsList_congr {env env' : FileEnv} (h : env'.pkg = env.pkg) (known : Str → Bool) : ∀ ns : List Node,
    mentionsList env' known ns = mentionsList env known ns
  | [] => by simp only [mentionsList]
  | n :: ns => by simp only [mentionsList, mentions_congr h known n, mentionsList_congr h known ns]

end

theorem skip_iff (scopes : Scopes) (g : Global) (r : Obj) (hw : WellFormedObj r) (hsk : r.self.objId ∉ g.skipped)
    (hpk : ∀ q, r.self.cls ≠ .pkgName q) : (g.getSymbolOfObject scopes r).2 = .skip ↔ NeedsNoSymbol r := by
  have hc := C20_classification scopes g r hw
  constructor
  · intro h
    by_contra hn
    unfold NeedsNoSymbol at hn
    push Not at hn
    obtain ⟨h1, h2, h3, h4⟩ := hn
    cases hp : r.self.pkg with
    | none => exact h1 hp
    | some path =>
      have hu : path ≠ go!"unsafe" := fun e => h2 (by rw [hp, e])
      unfold Global.getSymbolOfObject at h
      simp only [hsk, if_false, hp, hu] at h
      repeat' split at h
      all_goals first | (simp at h; done) | exact h3 ‹_› | exact h4 ‹_› | exact hpk _ ‹_›
  · rintro (h | h | h | h)
    · exact hc.2.2.1 h
    · exact hc.2.2.2.2 h hpk
    · exact hc.2.2.2.1 (.inl h)
    · exact hc.2.2.2.1 (.inr h)

section
variable {D : Deps} {o : Opts} {ord : MapOrders} {project all : GoMap Package} {objs : List Obj} {g : Global}

theorem eventsMet_take (ms : List Mention) (k : Nat) : eventsMet (ms.take k) = (eventsMet ms).take (eventsMet (ms.take k)).length := by
  have : eventsMet ms = eventsMet (ms.take k) ++ eventsMet (ms.drop k) := by rw [← eventsMet_append, List.take_append_drop]
  rw [this]; simp

/-- The records of one mention. -/
theorem report_mention (hg : Collected' o project all g) (ht : TypedProject D project all objs) (hv : ValidMapOrders ord)
    (horig : ∀ r ∈ objs, ∀ q, (entityOf r).cls ≠ .pkgName q) {e : Package × SourceFile}
    (he : e ∈ filesOf (sortedValues project)) {n : Nat} {t : Table} (htab : tableFor e.1 (packageSymbol e.1) = some t) (k : Nat)
    (m : Mention) (hm : (fileMentionsOf D all e.1 e.2)[k]? = some m) :
    MentionReport D project all e (identsOf (eventsMet ((fileMentionsOf D all e.1 e.2).take (k + 1)))) m
      (recordsAt (fileEnv D ord n e.1 t) g (eventsMet ((fileMentionsOf D all e.1 e.2).take k)) m) := by
  obtain ⟨hp, hf, _⟩ := mem_project_files ht he
  have hts := ht.files _ _ hp _ hf
  have hkeys := ht.all_keyed.nodup
  have hevents : eventsMet (fileMentionsOf D all e.1 e.2) = fileEventsOf D all e.1 e.2 := eventsMet_mentionsList _ _ _
  cases m with
  | dropped i imported sel => rfl
  | met ev =>
    cases ev with
    | qualifier i x imported => rfl
    | imp uid name pathPos =>
      show ImportReport all e.1 uid pathPos _
      simp only [recordsAt]
      have hb : ((fileEnv D ord n e.1 t).pkgNameOf uid).bind (fileEnv D ord n e.1 t).imports = (e.1.pkgNameOf uid).bind e.1.imports := rfl
      rw [hb]
      refine ⟨?_, ?_, ?_⟩
      · intro h; rw [h]
      · intro imported h hn
        rw [h]
        simp only [hg.packages]
        cases hq : all.get imported with
        | none => rfl
        | some q => exact absurd (GoMap.mem_of_get hq) (hn q)
      · intro imported q h hq
        rw [h]
        simp only [hg.packages, GoMap.get_of_mem hkeys hq, Option.map_some]
    | ident u decl =>
      have hmem : Event.ident u decl ∈ fileEventsOf D all e.1 e.2 := by
        rw [← hevents]
        exact List.mem_filterMap.2 ⟨_, List.mem_of_getElem? hm, rfl⟩
      have hu : u ∈ identsOf (fileEventsOf D all e.1 e.2) := mem_identsOf.2 ⟨decl, hmem⟩
      have hcc := caseClauses_iff (D := D) (ord := ord) hv (n := n) (p := e.1) (t := t) (i := u)
      have hupto : eventsMet ((fileMentionsOf D all e.1 e.2).take k) ++ [Event.ident u decl] =
          eventsMet ((fileMentionsOf D all e.1 e.2).take (k + 1)) := by
        rw [List.take_succ, hm, eventsMet_append]; rfl
      have hl := localSymbolAt_iff (ord := ord) ht hv he (n := n) htab (eventsMet ((fileMentionsOf D all e.1 e.2).take (k + 1))).length
      rw [← hevents, ← eventsMet_take] at hl
      show IdentReport D project all e _ u _
      simp only [recordsAt, hupto]
      generalize hup : eventsMet ((fileMentionsOf D all e.1 e.2).take (k + 1)) = upto at hl
      unfold identRecords
      have huses : (fileEnv D ord n e.1 t).pkg.uses u.uid = e.1.env.uses u.uid := rfl
      have hdefs : (fileEnv D ord n e.1 t).pkg.defs u.uid = e.1.env.defs u.uid := rfl
      have hscopes : (fileEnv D ord n e.1 t).scopes = D.scopes := rfl
      have hpos : (fileEnv D ord n e.1 t).pkg.position u.pos = e.1.env.position u.pos := rfl
      rw [huses, hdefs, hscopes, hpos]
      refine ⟨?_, ?_, ?_, ?_, ?_, ?_⟩
      · intro h; rw [if_pos (h.imp id hcc.2)]
      · intro h1 h2 h3 h4
        rw [if_neg (by rw [hcc]; simp [h1, h2]), h3, h4]
        simp
      · intro h3 h4
        rw [h3]
        split
        · rfl
        · cases hd : e.1.env.defs u.uid with
          | none => exact absurd hd h4
          | some d => simp
      · rintro r hr ⟨l, hl1, hl2, hl3⟩
        rw [hr]
        split
        · rfl
        · obtain ⟨j, hj⟩ := List.mem_iff_getElem?.1 hl1
          simp only [(hl r.self.pos).1 j l hj hl2 hl3]
      · rintro r hr h
        have hro := hts.looked_up u hu r hr
        have hpk := hts.no_package_value u hu r hr
        obtain ⟨_, h2⟩ := lookup_named hg ht r hro hpk (horig r hro)
        have hne : (g.getSymbolOfObject D.scopes r).2 ≠ .error := by
          rcases h with h | h
          · obtain ⟨info, hi⟩ := h2 h
            rw [hi]; simp
          · rw [(skip_iff D.scopes g r (ht.wellFormed r hro) (by rw [hg.skipped]; simp) hpk).2 h]; simp
        rw [hr]
        split
        · rfl
        · dsimp only
          split
          · rfl
          · split
            · rename_i hx; exact absurd hx hne
            · rfl
      · intro h1 h2 r hr hno hun hnn
        have hro := hts.looked_up u hu r hr
        have hpk := hts.no_package_value u hu r hr
        obtain ⟨h3, _⟩ := lookup_named hg ht r hro hpk (horig r hro)
        have hskip := skip_iff D.scopes g r (ht.wellFormed r hro) (by rw [hg.skipped]; simp) hpk
        have hc := C20_classification D.scopes g r (ht.wellFormed r hro)
        have herr : (g.getSymbolOfObject D.scopes r).2 = .error := by
          cases hx : (g.getSymbolOfObject D.scopes r).2 with
          | info info => exact absurd (h3 info hx) (hun _)
          | skip => exact absurd (hskip.1 hx) hnn
          | error => rfl
          | panic => exact absurd hx (hc.1 hpk)
        obtain ⟨path, hpath, _⟩ := hc.2.1 herr
        refine ⟨path, hpath, ?_⟩
        rw [if_neg (by rw [hcc]; simp [h1, h2]), hr]
        simp only [(hl r.self.pos).2 hno, herr, hpath, Option.getD_some]

/-- The log of one file. -/
theorem visitFileLog_report (hg : Collected' o project all g) (ht : TypedProject D project all objs) (hv : ValidMapOrders ord)
    (horig : ∀ r ∈ objs, ∀ q, (entityOf r).cls ≠ .pkgName q) {e : Package × SourceFile} (he : e ∈ filesOf (sortedValues project)) {d : Doc}
    (hd : d = ⟨(Filepath.rel o.moduleRoot e.2.fileName).getD [], some (packageOccurrence e.1 (packageSymbol e.1) e.2)⟩)
    (n : Nat) {g' : Global} (ha : Asked D.scopes g objs g') : FileReport D project all e (visitFileLog D ord n e.1 e.2 d g') := by
  obtain ⟨hp, hf, _⟩ := mem_project_files ht he
  obtain ⟨t, htab, hl⟩ := hg.inProject e.1 hp
  have hpar := parsed_of (ord := ord) hg ht hp hf n t
  have htyp := typed_of hg ht hv hp hf n hl
  have hs := ht.files _ _ hp _ hf
  have hl' : g'.symbols.lookup e.1.path = some ⟨some e.1.env.module, t⟩ := by rw [ha.frame.1]; exact hl
  have hev := events_eq (D := D) (ord := ord) hg n e.1 t e.2
  obtain ⟨st, hst⟩ := C14_no_crash (fileEnv D ord n e.1 t) g objs g' e.2.name e.2.decls
    (packageOccurrence e.1 (packageSymbol e.1) e.2) ha hpar htyp (by rw [hev]; exact hs.apart) (by rw [hev]; exact hs.declared_at)
    (by rw [hev]; exact hs.no_package_value)
  subst hd
  unfold visitFileLog
  rw [hl']
  simp only [Option.getD_some]
  rw [show e.2.node = .file e.2.name e.2.decls from rfl]
  simp only [fileWalk] at hst
  simp only [fileLog]
  have hmen : mentionsList (fileEnv D ord n e.1 t) (fun p => (g.getPkgSymbol p).isSome) e.2.decls = fileMentionsOf D all e.1 e.2 := by
    rw [known_eq hg]
    exact mentionsList_congr (env := sourceEnv D e.1) (env' := fileEnv D ord n e.1 t) rfl _ _
  have hrep := reports_list (known := fun p => (g.getPkgSymbol p).isSome) htyp (fun _ => rfl) e.2.decls (fun i hi => hi) []
    (newFileVisitor (packageOccurrence e.1 (packageSymbol e.1) e.2) g') st ⟨rfl, ha⟩ hst
  rw [hmen] at hrep
  refine ⟨_, hrep.2, recordsFrom_length _ _ _ _, ?_⟩
  intro k m rs hm hrs
  rw [recordsFrom_get _ _ _ _ k m hm] at hrs
  simp only [List.nil_append, Option.some.injEq] at hrs
  subst hrs
  exact report_mention hg ht hv horig he htab k m hm

/-- The logs of the files, one for each document. -/
theorem documentLogs_report (hg : Collected' o project all g) (ht : TypedProject D project all objs) (hv : ValidMapOrders ord)
    (horig : ∀ r ∈ objs, ∀ q, (entityOf r).cls ≠ .pkgName q) {heap : Impl.Heap} {docs : Docs} (w : Writer) :
    ∀ (fs : List (Package × SourceFile)) (g' : Global) (done : List Message),
    (∀ e ∈ fs, e ∈ filesOf (sortedValues project) ∧
      docs.get e.2.fileName = some ⟨(Filepath.rel o.moduleRoot e.2.fileName).getD [], some (packageOccurrence e.1 (packageSymbol e.1) e.2)⟩) →
    Asked D.scopes g objs g' →
    (writeDocuments D ord w heap docs fs g' done).messages.length = done.length + (documentLogs D ord w heap docs fs g' done).length ∧
    ∀ (i : Nat) (log : List Record), (documentLogs D ord w heap docs fs g' done)[i]? = some log → ∃ e : Package × SourceFile, fs[i]? = some e ∧ FileReport D project all e log := by
  intro fs
  induction fs with
  | nil => intro g' done _ _; exact ⟨by simp [writeDocuments, documentLogs], by simp [documentLogs]⟩
  | cons e fs ih =>
    intro g' done he ha
    obtain ⟨hmem, hd⟩ := he e (by simp)
    obtain ⟨hp, hf, _⟩ := mem_project_files ht hmem
    obtain ⟨m, g'', hm, ha', _⟩ := visitFile_document (heap := heap) hg ht hv hp hf rfl done.length ha
    have hrep := visitFileLog_report hg ht hv horig hmem rfl done.length ha
    unfold writeDocuments documentLogs
    rw [hd]
    simp only
    rw [hm]
    simp only
    cases hw : w done m with
    | some err =>
      refine ⟨by simp, ?_⟩
      intro i log hi
      cases i with
      | zero => simp only [List.getElem?_cons_zero, Option.some.injEq] at hi; subst hi; exact ⟨e, rfl, hrep⟩
      | succ i => simp at hi
    | none =>
      simp only
      obtain ⟨h1, h2⟩ := ih g'' (done ++ [m]) (fun x hx => he x (by simp [hx])) ha'
      refine ⟨by rw [h1]; simp; omega, ?_⟩
      intro i log hi
      cases i with
      | zero => simp only [List.getElem?_cons_zero, Option.some.injEq] at hi; subst hi; exact ⟨e, rfl, hrep⟩
      | succ i =>
        obtain ⟨e', he', hd'⟩ := h2 i log (by simpa using hi)
        exact ⟨e', by simpa using he', hd'⟩

end

/-- **C97** (the reports): while the file of a document is visited, what is logged is exactly what `FileReport` says. -/
theorem C97_reports (D : Deps) (o : Opts) (ord : MapOrders) (w : Writer) (project all : GoMap Package) (objs : List Obj)
    (ht : TypedProject D project all objs) (hv : ValidMapOrders ord) (horig : ∀ r ∈ objs, ∀ q, (entityOf r).cls ≠ .pkgName q)
    (i : Nat) (e : Package × SourceFile) (he : (filesOf (sortedValues project))[i]? = some e) (m : Message)
    (hm : (index D o ord w (.ok (project, all))).messages[i + 1]? = some m) :
    ∃ log, (indexLogs D o ord w (.ok (project, all)))[i]? = some log ∧ FileReport D project all e log := by
  obtain ⟨docs, g, g', heap, externals, hvp, hg, him, hdoc⟩ := run_document ht hv he hm
  have hw : w [] (.metadata (metadata D o)) = none := by
    cases hw : w [] (.metadata (metadata D o)) with
    | none => rfl
    | some err => unfold index at hm; simp [hw] at hm
  have hlt := (List.getElem?_eq_some_iff.1 he).1
  obtain ⟨h1, h2⟩ := documentLogs_report (heap := heap) hg ht hv horig w (filesOf (sortedValues project)) g' [.metadata (metadata D o)]
    (fun x hx => ⟨hx, (docs_of ht hv hvp x hx).2.2⟩) (implementations_asked hg ht hv him)
  obtain ⟨ds, a1, a2, a3, _⟩ := writeDocuments_documents (heap := heap) hg ht hv w (filesOf (sortedValues project)) g'
    [.metadata (metadata D o)] (docs_of ht hv hvp) (implementations_asked hg ht hv him)
  have hlogs : indexLogs D o ord w (.ok (project, all)) =
      documentLogs D ord w heap docs (filesOf (sortedValues project)) g' [.metadata (metadata D o)] := by
    simp only [indexLogs, hw, hvp, him]
  rw [hlogs]
  have hlen : i < (documentLogs D ord w heap docs (filesOf (sortedValues project)) g' [.metadata (metadata D o)]).length := by
    have hds : ds.length = (documentLogs D ord w heap docs (filesOf (sortedValues project)) g' [.metadata (metadata D o)]).length := by
      rw [a1] at h1; simp at h1; omega
    rw [← hds]
    unfold index at hm
    simp only [hw, hvp, him] at hm
    generalize hrd : writeDocuments D ord w heap docs (filesOf (sortedValues project)) g' [.metadata (metadata D o)] = rd at hm a1 a2 a3
    obtain ⟨done, out⟩ := rd
    cases out with
    | ok => have := a3 rfl; omega
    | failed err =>
      simp only at hm a1
      rw [a1] at hm
      have := (List.getElem?_eq_some_iff.1 hm).1
      simp at this; omega
    | crash => exact absurd rfl a2
  obtain ⟨log, hlog⟩ : ∃ log, (documentLogs D ord w heap docs (filesOf (sortedValues project)) g' [.metadata (metadata D o)])[i]? = some log :=
    ⟨_, List.getElem?_eq_getElem hlen⟩
  obtain ⟨e', he', hr⟩ := h2 i log hlog
  rw [he] at he'
  simp only [Option.some.injEq] at he'
  subst he'
  exact ⟨log, hlog, hr⟩

/-- **C97** (identifiers): an identifier that refers to something has a reference in the document, or it refers to something that needs no
symbol, or the log names its position and the package of what it refers to. -/
theorem C97_no_silent_loss (D : Deps) (o : Opts) (ord : MapOrders) (w : Writer) (project all : GoMap Package) (objs : List Obj)
    (ht : TypedProject D project all objs) (hv : ValidMapOrders ord) (horig : ∀ r ∈ objs, ∀ q, (entityOf r).cls ≠ .pkgName q)
    (i : Nat) (e : Package × SourceFile) (he : (filesOf (sortedValues project))[i]? = some e) (path : Str) (occs : List Occurrence)
    (syms : List (SymInfo × List Str)) (hm : (index D o ord w (.ok (project, all))).messages[i + 1]? = some (.document path occs syms)) :
    ∃ log, (indexLogs D o ord w (.ok (project, all)))[i]? = some log ∧
      (∀ u decl, .met (.ident u decl) ∈ fileMentionsOf D all e.1 e.2 → u.name ≠ go!"_" → ¬ SwitchIdent e.1 u →
        ∀ r, e.1.env.uses u.uid = some r →
          (∃ x ∈ occs, x.isDef = false ∧ x.range = identSpan (sourceEnv D e.1) u) ∨ NeedsNoSymbol r ∨
          ∃ pkg, r.self.pkg = some pkg ∧ .objectUnknown (e.1.env.position u.pos) pkg ∈ log) ∧
      (∀ j imported sel, .dropped j imported sel ∈ fileMentionsOf D all e.1 e.2 → .packageUnknown imported ∈ log) ∧
      (∀ uid name pos, .met (.imp uid name pos) ∈ fileMentionsOf D all e.1 e.2 →
        (∃ imported x, (e.1.pkgNameOf uid).bind e.1.imports = some imported ∧ x ∈ occs ∧ x.isDef = false ∧
          x.range = [((e.1.env.position pos).line : Int) - 1, (e.1.env.position pos).col, (e.1.env.position pos).col + imported.length]) ∨
        .importUnresolved pos ∈ log ∨
        ∃ imported, (e.1.pkgNameOf uid).bind e.1.imports = some imported ∧ .importUnknown imported ∈ log) := by
  classical
  obtain ⟨log, hlog, parts, rfl, hlen, hparts⟩ := C97_reports D o ord w project all objs ht hv horig i e he _ hm
  obtain ⟨rparts, hocc, hrlen, hrefs⟩ := C13_whole_run D o ord w project all objs ht hv horig i e he path occs syms hm
  have hevents : eventsMet (fileMentionsOf D all e.1 e.2) = fileEventsOf D all e.1 e.2 := eventsMet_mentionsList _ _ _
  have hpart : ∀ (k : Nat) (m : Mention), (fileMentionsOf D all e.1 e.2)[k]? = some m → ∃ rs : List Record, parts[k]? = some rs ∧ (∀ x ∈ rs, x ∈ parts.flatten) := by
    intro k m hk
    have hk' : k < parts.length := by rw [hlen]; exact (List.getElem?_eq_some_iff.1 hk).1
    exact ⟨parts[k], List.getElem?_eq_getElem hk', fun x hx => List.mem_flatten.2 ⟨_, List.getElem_mem hk', hx⟩⟩
  -- the references of a mention that is met
  have href : ∀ (k : Nat) (ev : Event), (fileMentionsOf D all e.1 e.2)[k]? = some (.met ev) → ∃ os,
      EventRefs D project all e (identsOf (eventsMet ((fileMentionsOf D all e.1 e.2).take (k + 1)))) ev os ∧
      ∀ x ∈ os, x ∈ occs ∧ x.isDef = false := by
    intro k ev hk
    have hsucc : eventsMet ((fileMentionsOf D all e.1 e.2).take (k + 1)) = eventsMet ((fileMentionsOf D all e.1 e.2).take k) ++ [ev] := by
      rw [List.take_succ, hk, eventsMet_append]; rfl
    have hj : (fileEventsOf D all e.1 e.2)[(eventsMet ((fileMentionsOf D all e.1 e.2).take k)).length]? = some ev := by
      rw [← hevents]
      conv_lhs => rw [← List.take_append_drop (k + 1) (fileMentionsOf D all e.1 e.2), eventsMet_append, hsucc]
      simp
    have htake : eventsMet ((fileMentionsOf D all e.1 e.2).take (k + 1)) =
        (fileEventsOf D all e.1 e.2).take ((eventsMet ((fileMentionsOf D all e.1 e.2).take k)).length + 1) := by
      rw [eventsMet_take, hevents, hsucc]; simp
    have hj' : (eventsMet ((fileMentionsOf D all e.1 e.2).take k)).length < rparts.length := by
      rw [hrlen]; exact (List.getElem?_eq_some_iff.1 hj).1
    refine ⟨_, by rw [htake]; exact hrefs _ ev _ hj (List.getElem?_eq_getElem hj'), ?_⟩
    intro x hx
    have : x ∈ occs.filter (fun x => !x.isDef) := by rw [hocc]; exact List.mem_flatten.2 ⟨_, List.getElem_mem hj', hx⟩
    simpa using List.mem_filter.1 this
  refine ⟨_, hlog, ?_, ?_, ?_⟩
  · intro u decl hmem hb hs r hr
    obtain ⟨k, hk⟩ := List.mem_iff_getElem?.1 hmem
    obtain ⟨rs, hrs, hin⟩ := hpart k _ hk
    have hrep : IdentReport D project all e _ u rs := hparts k _ rs hk hrs
    obtain ⟨os, hos, hall⟩ := href k _ hk
    have hos : IdentRefs D project all e _ u os := hos
    by_cases hloc : ∀ l ∈ localIdents D all e.1 e.2, l ∈ identsOf (eventsMet ((fileMentionsOf D all e.1 e.2).take (k + 1))) → l.pos ≠ r.self.pos
    · by_cases hnm : ∃ sym, NamedBy D project all r sym
      · obtain ⟨sym, dep, h1, _⟩ := hos.toEntity hb hs r hr hloc hnm
        have := hall _ (by rw [h1]; exact List.mem_singleton.2 rfl)
        exact .inl ⟨_, this.1, this.2, rfl⟩
      · by_cases hnn : NeedsNoSymbol r
        · exact .inr (.inl hnn)
        · obtain ⟨pkg, h1, h2⟩ := hrep.lost hb hs r hr hloc (fun s x => hnm ⟨s, x⟩) hnn
          exact .inr (.inr ⟨pkg, h1, hin _ (by rw [h2]; exact List.mem_singleton.2 rfl)⟩)
    · push Not at hloc
      obtain ⟨l, h1, h2, h3⟩ := hloc
      obtain ⟨j, hj⟩ := List.mem_iff_getElem?.1 h1
      have := hall _ (by rw [hos.toLocal hb hs r hr j l hj h2 h3]; exact List.mem_singleton.2 rfl)
      exact .inl ⟨_, this.1, this.2, rfl⟩
  · intro j imported sel hmem
    obtain ⟨k, hk⟩ := List.mem_iff_getElem?.1 hmem
    obtain ⟨rs, hrs, hin⟩ := hpart k _ hk
    have : rs = [.packageUnknown imported] := hparts k _ rs hk hrs
    exact hin _ (by rw [this]; exact List.mem_singleton.2 rfl)
  · intro uid name pos hmem
    obtain ⟨k, hk⟩ := List.mem_iff_getElem?.1 hmem
    obtain ⟨rs, hrs, hin⟩ := hpart k _ hk
    have hrep : ImportReport all e.1 uid pos rs := hparts k _ rs hk hrs
    obtain ⟨os, hos, hall⟩ := href k _ hk
    have hos : ImportRefs all e.1 uid name pos os := hos
    cases hi : (e.1.pkgNameOf uid).bind e.1.imports with
    | none => exact .inr (.inl (hin _ (by rw [hrep.unresolved hi]; exact List.mem_singleton.2 rfl)))
    | some imported =>
      by_cases hq : ∃ q, (imported, q) ∈ all
      · obtain ⟨q, hq⟩ := hq
        have h1 := hos.1 imported q hi hq
        have := hall _ (by rw [h1]; exact List.mem_append_right _ (List.mem_singleton.2 rfl))
        exact .inl ⟨imported, _, rfl, this.1, this.2, rfl⟩
      · exact .inr (.inr ⟨imported, rfl, hin _ (by rw [hrep.unknown imported hi fun q x => hq ⟨q, x⟩]; exact List.mem_singleton.2 rfl)⟩)

/-- **C97** (what is shown): with `-VV` everything that is logged is shown, without flags warnings only, with `--quiet` nothing; and what is shown
with less verbosity is shown, in the same order, with more. -/
theorem C97_shown (rs : List Record) :
    (∀ (quiet : Bool) (verbosity level : Int), Cmd.getLogLevel quiet verbosity = some level →
      (quiet = true → shown level rs = []) ∧
      (quiet = false → verbosity ≥ 2 → shown level rs = rs) ∧
      (quiet = false → verbosity < 2 → ∀ r, r ∈ shown level rs ↔ r ∈ rs ∧ ∃ pos, r = .importUnresolved pos)) ∧
    ∀ v v' level level' : Int, v ≤ v' → Cmd.getLogLevel false v = some level → Cmd.getLogLevel false v' = some level' →
      (shown level rs).Sublist (shown level' rs) := by
  obtain ⟨_, hmono, hbig, ⟨h0, h1, h2⟩, hq, hw⟩ := C61_log_level
  have hmono : ∀ v w l k : Int, 0 ≤ v → v ≤ w → getLogLevel false v = some l → getLogLevel false w = some k → k ≤ l := hmono
  have hsh : ∀ (l : Int) rs, shown l rs = if l > (4 : Int) then [] else rs.filter (fun r => decide ((r.level : Int) ≥ l)) := fun _ _ => rfl
  have hrec : ∀ r : Record, (r.level = -4 ∧ ¬ ∃ pos, r = .importUnresolved pos) ∨ (r.level = 4 ∧ ∃ pos, r = .importUnresolved pos) := by
    intro r
    cases r with
    | importUnresolved pos => exact .inr ⟨rfl, pos, rfl⟩
    | packageUnknown q => exact .inl ⟨rfl, by simp⟩
    | importUnknown q => exact .inl ⟨rfl, by simp⟩
    | objectUnknown a b => exact .inl ⟨rfl, by simp⟩
    | unresolved a b => exact .inl ⟨rfl, by simp⟩
  have hnn : ∀ v l : Int, getLogLevel false v = some l → 0 ≤ v := by
    intro v l h
    by_contra hc
    rw [C61_negative_crashes v (by omega)] at h
    simp at h
  have hle : ∀ v l : Int, getLogLevel false v = some l → l ≤ 4 := by
    intro v l h
    obtain ⟨l', h', hl⟩ := C61_log_level.1 v (hnn v l h)
    rw [h] at h'
    simp only [Option.some.injEq] at h'
    subst h'
    simpa [hw] using hl
  refine ⟨?_, ?_⟩
  · intro quiet v level hl
    refine ⟨?_, ?_, ?_⟩
    · rintro rfl
      rw [hq] at hl
      simp only [Option.some.injEq] at hl
      subst hl
      simp [shown, hw]
    · rintro rfl hv
      rw [hbig v hv, h2] at hl
      simp only [Option.some.injEq] at hl
      subst hl
      simp only [hsh]
      rw [if_neg (by decide)]
      refine List.filter_eq_self.2 fun r _ => ?_
      rcases hrec r with h | h <;> simp [h.1]
    · rintro rfl hv r
      have hl4 := hle v level hl
      have hl0 : (0 : Int) ≤ level := by
        have := hnn v level hl
        have hv' : v = 0 ∨ v = 1 := by omega
        rcases hv' with rfl | rfl
        · rw [h0] at hl; simp only [Option.some.injEq] at hl; subst hl; decide
        · rw [h1] at hl; simp only [Option.some.injEq] at hl; subst hl; decide
      simp only [hsh]
      rw [if_neg (by omega)]
      rw [List.mem_filter]
      rcases hrec r with h | h
      · simp only [h.1, decide_eq_true_eq, h.2, and_false, iff_false]
        rintro ⟨_, hx⟩
        omega
      · simp only [h.1, decide_eq_true_eq, h.2, and_true]
        exact ⟨fun hx => hx.1, fun hx => ⟨hx, by omega⟩⟩
  · intro v v' level level' hvv hl hl'
    have h1' := hmono v v' level level' (hnn v level hl) hvv hl hl'
    have hl4 := hle v level hl
    have hl4' := hle v' level' hl'
    simp only [hsh]
    rw [if_neg (by omega), if_neg (by omega)]
    refine List.monotone_filter_right _ fun r hr => ?_
    simp only [decide_eq_true_eq] at hr ⊢
    omega

end Verif
