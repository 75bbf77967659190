import Verif.Model.Commands
import Verif.Props.Git
import Verif.Props.Cmd
/-! # C76–C78: the listing commands, the defaults and the exit status -/
namespace Verif
open Cmd Git Commands Filepath

/-! ## C76: the listing commands -/

/-- The lines of a text: what stands before each newline. -/
def Spec.linesOf (s : Str) : List Str := (Str.splitOn '\n' s).dropLast

theorem splitOn_ne_nil (c : Char) (s : Str) : Str.splitOn c s ≠ [] := by
  induction s with
  | nil => simp [Str.splitOn]
  | cons a s ih =>
    unfold Str.splitOn
    split
    · simp
    · split <;> simp

theorem linesOf_line {x s : Str} (h : '\n' ∉ x) : Spec.linesOf (x ++ '\n' :: s) = x :: Spec.linesOf s := by
  unfold Spec.linesOf
  rw [splitOn_append h, List.dropLast_cons_of_ne_nil (splitOn_ne_nil _ _)]

theorem linesOf_println {x s : Str} (h : '\n' ∉ x) : Spec.linesOf (println x ++ s) = x :: Spec.linesOf s := by
  have : println x ++ s = x ++ '\n' :: s := by simp [println]
  rw [this, linesOf_line h]

theorem linesOf_printlns {xs : List Str} {s : Str} (h : ∀ x ∈ xs, '\n' ∉ x) : Spec.linesOf (printlns xs ++ s) = xs ++ Spec.linesOf s := by
  induction xs with
  | nil => rfl
  | cons x xs ih =>
    have : printlns (x :: xs) ++ s = println x ++ (printlns xs ++ s) := by simp [printlns]
    rw [this, linesOf_println (h x (by simp)), ih (fun y hy => h y (by simp [hy]))]
    rfl

theorem linesOf_nil : Spec.linesOf [] = [] := rfl

theorem linesOf_listing {c d : List Str} (hc : ∀ x ∈ c, '\n' ∉ x) (hd : ∀ x ∈ d, '\n' ∉ x) :
    Spec.linesOf (println go!"Current packages" ++ printlns c ++ println go!"Dependency packages" ++ printlns d) =
      [go!"Current packages"] ++ c ++ [go!"Dependency packages"] ++ d := by
  rw [List.append_assoc, List.append_assoc, linesOf_println (by decide), linesOf_printlns hc, linesOf_println (by decide),
    ← List.append_nil (printlns d), linesOf_printlns hd, linesOf_nil]
  simp

/-- **C76.** For every result of loading: the command `packages` prints, line by line, a heading, the project's packages, a heading, all packages;
both lists strictly sorted, listing exactly the loaded packages (import paths have no line breaks). -/
theorem C76_packages_listing {env : Loader.Env} {opts : Loader.Opts} {g : Loader.Graph} {pkgs : Nat → Loader.PkgSt}
    {order : Nat → Nat → List Nat} {fuel : Nat} {l : Loader.Loaded} (ho : Loader.Spec.ValidOrder g order)
    (h : Loader.loadPackages env opts (some (g, pkgs)) order fuel = some (some l)) (o : IndexOpts)
    (load : IndexOpts → Except Str (GoMap (Option Loader.Kept) × GoMap Loader.Kept)) (hl : load o = .ok (l.project, l.st.all))
    (hline : ∀ k v, l.st.all.get k = some v → '\n' ∉ k) :
    ∃ current deps, Spec.linesOf (packagesRun (.ok o) (packagesOf load)).printed =
        [go!"Current packages"] ++ current ++ [go!"Dependency packages"] ++ deps ∧
      (packagesRun (.ok o) (packagesOf load)).exit = .ok () ∧
      current.Pairwise (fun a b => Str.lt a b = true) ∧ deps.Pairwise (fun a b => Str.lt a b = true) ∧
      (∀ k, k ∈ current ↔ ∃ v, l.project.get k = some v) ∧ (∀ k, k ∈ deps ↔ ∃ v, l.st.all.get k = some v) := by
  obtain ⟨h1, h2, h3, h4, h5, _⟩ := C56_listing ho h _ _ rfl
  refine ⟨_, _, ?_, ?_, h1, h2, h3, h4⟩
  · have hd : ∀ x ∈ sortStrs l.st.all.keys, '\n' ∉ x := fun x hx => by
      obtain ⟨v, hv⟩ := (h4 x).1 hx
      exact hline x v hv
    simp only [packagesRun, packagesOf, Index.getPackages, hl]
    exact linesOf_listing (fun x hx => hd x (h5 x hx)) hd
  · simp [packagesRun, packagesOf, Index.getPackages, hl]

/-- If the options or loading fail, the error is returned and nothing is printed (but progress). -/
theorem C76_failure_prints_nothing (o : IndexOpts) (e : Str)
    (load : IndexOpts → Except Str (GoMap Index.Package × GoMap Index.Package)) (hl : load o = .error e)
    (order order' : GoMap Index.Package → List Index.Package) :
    packagesRun (.ok o) (packagesOf load) = ⟨[], .error e⟩ ∧ missingRun (.ok o) (missingOf order order' load) = ⟨[], .error e⟩ ∧
    packagesRun (.error e) (packagesOf load) = ⟨[], .error e⟩ ∧ missingRun (.error e) (missingOf order order' load) = ⟨[], .error e⟩ := by
  simp [packagesRun, missingRun, packagesOf, missingOf, Index.getPackages, hl]

/-- **C76**, `missing`: for every load and every iteration order the command says that nothing is missing (or panics while visiting). -/
theorem C76_missing_text (order order' : GoMap Index.Package → List Index.Package) (ho : ∀ m, (order m).Perm (m.map (·.2)))
    (ho' : ∀ m, (order' m).Perm (m.map (·.2)))
    (load : IndexOpts → Except Str (GoMap Index.Package × GoMap Index.Package)) (o : IndexOpts) (project all : GoMap Index.Package)
    (hl : load o = .ok (project, all)) :
    missingRun (.ok o) (missingOf order order' load) = ⟨go!"No missing documents\n", .ok ()⟩ ∨
    missingRun (.ok o) (missingOf order order' load) = ⟨[], .crash⟩ := by
  simp only [missingRun, missingOf, hl]
  cases hm : Index.listMissing o.moduleRoot (order project) (order' project) with
  | none => exact .inr rfl
  | some l =>
    have := C55_nothing_missing o.moduleRoot (project.map (·.2)) _ _ (ho project) (ho' project) l hm
    subst this
    exact .inl rfl

/-- `missing` on any list of missing documents (by C55 there never are any): a heading and the documents, one per line. -/
theorem C76_missing_documents (o : IndexOpts) (missing : List Str) (hl : ∀ x ∈ missing, '\n' ∉ x) :
    Spec.linesOf (missingRun (.ok o) fun _ => .ok missing).printed =
      if missing = [] then [go!"No missing documents"] else go!"Missing documents:" :: missing := by
  cases missing with
  | nil => rfl
  | cons x xs =>
    simp only [missingRun, List.length_cons, Nat.add_one_ne_zero, if_false, reduceCtorEq]
    rw [linesOf_println (by decide), ← List.append_nil (printlns (x :: xs)), linesOf_printlns hl, linesOf_nil, List.append_nil]

/-! ## C77: the defaults of the flags -/

/-- **C77.** The program gets past its defaults except in two situations: `git` reports no tag and a commit id of less than 12 characters, or
`go list` prints the JSON value `null`. -/
theorem C77_defaults_crash_iff (parseUrl : Str → Option (Str × Str)) (decode : Str → GoListAnswer) (T : Tools) :
    (∀ e, defaults parseUrl decode T ≠ .error e) ∧
    (defaults parseUrl decode T = .crash ↔
      (T.tags.err = none ∧ Str.trimSpace T.tags.text = [] ∧ T.head.err = none ∧ (Str.trimSpace T.head.text).length < 12) ∨
      (T.goList.err = none ∧ decode (Str.trimSpace T.goList.text) = .null)) := by
  obtain ⟨gu, ⟨tt, te⟩, ⟨ht, he⟩, ⟨gt, ge⟩⟩ := T
  have hv : defaultModuleVersion ⟨tt, te⟩ ⟨ht, he⟩ = .crash ∧ (te = none ∧ Str.trimSpace tt = [] ∧ he = none ∧ (Str.trimSpace ht).length < 12) ∨
      (∃ v, defaultModuleVersion ⟨tt, te⟩ ⟨ht, he⟩ = .ok v) ∧ ¬ (te = none ∧ Str.trimSpace tt = [] ∧ he = none ∧ (Str.trimSpace ht).length < 12) := by
    unfold defaultModuleVersion inferModuleVersion command
    cases te with
    | some e => right; simp
    | none =>
      by_cases h1 : Str.trimSpace tt = []
      · simp only [h1, ne_eq, not_true_eq_false, if_false]
        cases he with
        | some e => right; simp
        | none =>
          by_cases h2 : (Str.trimSpace ht).length < 12
          · left; simp [h2]
          · right; simp [h2]
      · right
        simp only [h1, ne_eq, not_false_eq_true, if_true]
        refine ⟨?_, by simp⟩
        cases List.find? Semver.isValid (Str.splitOn '\n' (Str.trimSpace tt)) <;> exact ⟨_, rfl⟩
  have hg : defaultGoVersion decode ⟨gt, ge⟩ = .crash ∧ (ge = none ∧ decode (Str.trimSpace gt) = .null) ∨
      (∃ v, defaultGoVersion decode ⟨gt, ge⟩ = .ok v) ∧ ¬ (ge = none ∧ decode (Str.trimSpace gt) = .null) := by
    unfold defaultGoVersion command
    cases ge with
    | some e => right; simp
    | none => cases h : decode (Str.trimSpace gt) <;> simp [h]
  unfold defaults
  simp only
  rcases hv with ⟨e1, c1⟩ | ⟨⟨v, e1⟩, c1⟩
  · rw [e1]; simp [c1]
  · rw [e1]
    rcases hg with ⟨e2, c2⟩ | ⟨⟨w, e2⟩, c2⟩
    · rw [e2]; simp [c2]
    · rw [e2]; simp [c1, c2]

/-- **C77.** A tool that fails leaves its default empty; one that answers determines it: the repository as in C62, the version as in C63,
the Go version with `go` in front. -/
theorem C77_defaults (parseUrl : Str → Option (Str × Str)) (decode : Str → GoListAnswer) (T : Tools) (d : Defaults) (h : defaults parseUrl decode T = .ok d) :
    ((∃ r, inferRepo parseUrl T.getUrl = .ok r ∧ d.remote = r) ∨ ((∃ e, inferRepo parseUrl T.getUrl = .error e) ∧ d.remote = [])) ∧
    (T.getUrl.err.isSome → d.remote = []) ∧
    ((∃ v, inferModuleVersion T.tags T.head = .ok v ∧ d.version = v) ∨ ((∃ e, inferModuleVersion T.tags T.head = .error e) ∧ d.version = [])) ∧
    (T.tags.err.isSome → d.version = []) ∧
    (T.goList.err.isSome → d.goVersion = []) ∧
    (∀ v, T.goList.err = none → decode (Str.trimSpace T.goList.text) = .module v → d.goVersion = go!"go" ++ v) ∧
    (T.goList.err = none → decode (Str.trimSpace T.goList.text) = .error → d.goVersion = []) := by
  unfold defaults at h
  cases h1 : defaultModuleVersion T.tags T.head with
  | crash => rw [h1] at h; simp at h
  | error => rw [h1] at h; simp at h
  | ok version =>
    rw [h1] at h
    cases h2 : defaultGoVersion decode T.goList with
    | crash => rw [h2] at h; simp at h
    | error => rw [h2] at h; simp at h
    | ok gv =>
      rw [h2] at h
      simp only [Res.ok.injEq] at h
      subst h
      refine ⟨?_, ?_, ?_, ?_, ?_, ?_, ?_⟩
      · simp only [defaultRepositoryRemote]
        cases inferRepo parseUrl T.getUrl with
        | ok r => exact .inl ⟨r, rfl, rfl⟩
        | error e => exact .inr ⟨⟨e, rfl⟩, rfl⟩
      · intro he
        obtain ⟨e, he⟩ := Option.isSome_iff_exists.1 he
        simp [defaultRepositoryRemote, inferRepo, command, he]
      · unfold defaultModuleVersion at h1
        cases hi : inferModuleVersion T.tags T.head with
        | ok v => rw [hi] at h1; simp only [Res.ok.injEq] at h1; exact .inl ⟨v, rfl, h1.symm⟩
        | error e => rw [hi] at h1; simp only [Res.ok.injEq] at h1; exact .inr ⟨⟨e, rfl⟩, h1.symm⟩
        | crash => rw [hi] at h1; simp at h1
      · intro he
        obtain ⟨e, he⟩ := Option.isSome_iff_exists.1 he
        simp [defaultModuleVersion, inferModuleVersion, command, he] at h1
        exact h1
      · intro he
        obtain ⟨e, he⟩ := Option.isSome_iff_exists.1 he
        simp [defaultGoVersion, command, he] at h2
        exact h2
      · intro v he hd
        simp [defaultGoVersion, command, he, hd] at h2
        exact h2.symm
      · intro he hd
        simp [defaultGoVersion, command, he, hd] at h2
        exact h2

/-- **C65**, outside of any repository: `git` fails, the root is taken to be the empty path, and the search gives up at once, whatever
`go.mod` files there are. -/
theorem C65_outside_repository (stat : Str → Stat) (wd : Str) (o : Output) (e : Str) (he : o.err = some e) (fuel : Nat) :
    searchForGoMod stat (fuel + 1) wd (toplevel o) = some go!"." := by
  have : toplevel o = [] := by simp [toplevel, command, he]
  rw [this]
  exact C65_inside_repository stat [] wd fuel (List.nil_prefix)

/-! ## C78: the exit status -/

/-- **C78.** Status 0 means that the arguments were understood and the command succeeded; an error gives status 1 and is printed; nothing is
printed otherwise. -/
theorem C78_exit_status (parsed : Except Str Unit) (run : Res Unit) :
    ((mainEnding parsed run).status = 0 ↔ parsed = .ok () ∧ run = .ok ()) ∧
    (∀ e, parsed = .error e ∨ (parsed = .ok () ∧ run = .error e) → mainEnding parsed run = ⟨1, go!"error: " ++ e ++ go!"\n"⟩) ∧
    ((mainEnding parsed run).stderr ≠ [] ↔ (mainEnding parsed run).status = 1) := by
  unfold mainEnding
  cases parsed with
  | error e => simp
  | ok u =>
    cases u
    cases run with
    | ok u => cases u; simp
    | error e => simp
    | crash => simp

/-- **C78**, the causes: whatever goes wrong, the error that `index` ends with is the one of the step that failed, with what the operating system
said; what comes later is not done. -/
theorem C78_causes (W : World) (profile : Int) (output : Str) (options : Res IndexOpts) (indexing : IndexOpts → Index.Writer → Index.Run)
    (before : Target) (S : Surroundings) (sh : SharedFlags) (e : Str) :
    (0 < profile → W.createProfile = some e →
      (Cmd.run W profile output options indexing before).exit = .error (go!"could not create memory profile: " ++ e)) ∧
    ((0 < profile → W.createProfile = none) →
      (options = .error e → (Cmd.run W profile output options indexing before).exit = .error e) ∧
      (∀ o, options = .ok o → output ≠ go!"-" → W.create = some e →
        (Cmd.run W profile output options indexing before).exit = .error (go!"failed to create scip index file " ++ W.quote output ++ go!": " ++ e)) ∧
      (∀ o, options = .ok o → output = go!"-" ∨ W.create = none → (indexing o (writer W.disk)).outcome = .failed e →
        (Cmd.run W profile output options indexing before).exit = .error e)) ∧
    (S.abs sh.moduleRoot = .error e → makeOptions S sh = .error (go!"get abspath of module root: " ++ e)) ∧
    (∀ (done : List Index.Message) (m : Index.Message),
      (Pb.marshal (Pb.indexOf m) = none → writer W.disk done m = some go!"failed to marshal SCIP index to Protobuf") ∧
      ∀ b k, Pb.marshal (Pb.indexOf m) = some b → W.disk (contentAfter W.disk done) b = some (k, e) →
        writer W.disk done m = some (go!"failed to write to scip index file: " ++ e)) := by
  refine ⟨?_, ?_, ?_, ?_⟩
  · intro hp he
    simp [Cmd.run, hp, he]
  · intro hp
    have : (if profile > 0 then W.createProfile else none) = none := by
      split
      · rename_i h; exact hp h
      · rfl
    refine ⟨?_, ?_, ?_⟩
    · intro h
      simp [Cmd.run, this, h]
    · intro o ho hne hc
      simp [Cmd.run, this, ho, hne, hc]
    · intro o ho hor hout
      by_cases hd : output = go!"-"
      · simp only [Cmd.run, this, ho, hd, if_true, hout]
      · have hc : W.create = none := by
          rcases hor with h | h
          · exact absurd h hd
          · exact h
        simp only [Cmd.run, this, ho, hd, if_false, hc, hout]
  · intro h
    simp [makeOptions, h]
  · intro done m
    refine ⟨?_, ?_⟩
    · intro h
      simp [writer, h]
    · intro b k h hd
      simp [writer, h, hd]

/-- **C78**, the command `index` on a well-typed project: with status 0 the output (the file, or what is written of the index to standard output,
see C89) is a complete index — it decodes to
the metadata, one document for every file of the project, in order, and all external symbols of the run; with another status the
output path holds what it held before or nothing. -/
theorem C78_status_tells_completeness (D : Index.Deps) (ord : Index.MapOrders)
    (load : IndexOpts → Except Str (GoMap Index.Package × GoMap Index.Package)) (W : World) (profile : Int) (output : Str)
    (options : Res IndexOpts) (before : Target) (hs : W.statOk = true) (hr : W.removeOk = true)
    (htyped : ∀ o project all, load o = .ok (project, all) → ∃ objs, Spec.TypedProject D project all objs ∧ ExtractorOk D all)
    (hv : Spec.ValidMapOrders ord) :
    let r := Cmd.run W profile output options (indexingOf D ord load) before
    ((mainEnding (.ok ()) r.exit).status = 0 →
      ∃ o project all ms, options = .ok o ∧ load o = .ok (project, all) ∧
        (output = go!"-" → r.target = before ∧ Spec.Decodes r.piped ms) ∧
        (output ≠ go!"-" → r.piped = [] ∧ (before = .special → r.target = .special) ∧
          (before ≠ .special → ∃ c, r.target = .regular c ∧ Spec.Decodes c ms)) ∧
        Spec.documentPaths ms = (Index.filesOf (Index.sortedValues project)).map (fun e => (Filepath.rel o.moduleRoot e.2.fileName).getD []) ∧
        (Spec.metadataOf ms).length = 1) ∧
    ((mainEnding (.ok ()) r.exit).status ≠ 0 → r.target = before ∨ r.target = .absent) := by
  intro r
  have hst := C78_exit_status (.ok ()) r.exit
  have hall := C54_all_or_nothing D ord load W profile output options before hs hr htyped hv
  change r.target = before ∨ r.target = .absent ∨ _ at hall
  refine ⟨?_, ?_⟩
  · intro h0
    have hex : r.exit = .ok () := (hst.1.1 h0).2
    have hr' : r = Cmd.run W profile output options (indexingOf D ord load) before := rfl
    clear hall hst h0
    rw [hr'] at hex ⊢
    clear hr'
    clear r
    unfold Cmd.run at hex ⊢
    split at hex
    · simp at hex
    · rename_i hp
      simp only
      cases options with
      | error => simp at hex
      | crash => simp at hex
      | ok o =>
        simp only at hex ⊢
        have facts : (indexingOf D ord load o (writer W.disk)).outcome = .ok →
            ∃ project all, load o = .ok (project, all) ∧
              Spec.documentPaths (indexingOf D ord load o (writer W.disk)).messages =
                (Index.filesOf (Index.sortedValues project)).map (fun e => (Filepath.rel o.moduleRoot e.2.fileName).getD []) ∧
              (Spec.metadataOf (indexingOf D ord load o (writer W.disk)).messages).length = 1 := by
          intro hok
          obtain ⟨project, all, docs, g, g', heap, ds, ex, hl, hvis, hi, hm, hpaths, _⟩ := C49_success_is_complete D _ ord (writer W.disk) _ hok
          have hexn : Spec.documentPaths ex = [] := by
            unfold Spec.documentPaths
            rw [List.filterMap_eq_nil_iff]
            intro m hm
            have := externals_of hi m hm
            cases m <;> simp_all [Spec.isExternal]
          refine ⟨project, all, hl, ?_, ?_⟩
          · have happ : ∀ md, Spec.documentPaths (.metadata md :: (ds ++ ex)) = Spec.documentPaths ds ++ Spec.documentPaths ex := by
              intro md; simp [Spec.documentPaths]
            unfold indexingOf
            rw [hm, happ, hexn, hpaths, List.append_nil]
          · refine Nat.le_antisymm (one_metadata _ _ _ _ _) ?_
            unfold indexingOf
            rw [hm]
            simp [Spec.metadataOf]
        by_cases ho : output = go!"-"
        · simp only [ho, if_true] at hex ⊢
          cases hout : (indexingOf D ord load o (writer W.disk)).outcome with
          | failed e => rw [hout] at hex; simp at hex
          | crash => rw [hout] at hex; simp at hex
          | ok =>
            obtain ⟨project, all, hl, hpaths, hmd⟩ := facts hout
            exact ⟨o, project, all, _, rfl, hl, fun _ => ⟨rfl, C52_successful_run_decodes D ord load o W.disk hout⟩, fun h => absurd rfl h, hpaths, hmd⟩
        · simp only [ho, if_false] at hex ⊢
          cases hc : W.create with
          | some e => rw [hc] at hex; simp at hex
          | none =>
            rw [hc] at hex
            simp only at hex ⊢
            cases hout : (indexingOf D ord load o (writer W.disk)).outcome with
            | failed e => rw [hout] at hex; simp at hex
            | crash => rw [hout] at hex; simp at hex
            | ok =>
              obtain ⟨project, all, hl, hpaths, hmd⟩ := facts hout
              refine ⟨o, project, all, _, rfl, hl, fun h => absurd h (by simpa using ho), fun _ => ⟨rfl, ?_, ?_⟩, hpaths, hmd⟩
              · rintro rfl; rfl
              · intro hb
                cases before with
                | special => exact absurd rfl hb
                | absent => exact ⟨_, rfl, C52_successful_run_decodes D ord load o W.disk hout⟩
                | regular c => exact ⟨_, rfl, C52_successful_run_decodes D ord load o W.disk hout⟩
  · intro h0
    rcases hall with h | h | ⟨o, c, _, _, hex, _⟩
    · exact .inl h
    · exact .inr h
    · exact absurd (hst.1.2 ⟨rfl, hex⟩) h0

end Verif
