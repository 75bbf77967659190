import Verif.Model.Cmd
import Verif.Props.Wire
import Verif.Props.Determinism
/-! # C41 (environment), C52 (whole program), C54, C61 -/
namespace Verif
open Pb Cmd

/-- **C61.** For every verbosity from 0 on there is a level; more verbosity never shows less (a smaller level shows more); beyond 2
nothing changes; the levels are those of log/slog (Debug −4, Info 0, Warn 4, Error 8); quiet always gives Error, above Warn, at which the
program prints nothing, and without quiet Warn is always shown. -/
theorem C61_log_level :
    (∀ v : Int, 0 ≤ v → ∃ l, getLogLevel false v = some l ∧ l ≤ levelWarn) ∧
    (∀ v w : Int, ∀ l k, 0 ≤ v → v ≤ w → getLogLevel false v = some l → getLogLevel false w = some k → k ≤ l) ∧
    (∀ v : Int, 2 ≤ v → getLogLevel false v = getLogLevel false 2) ∧
    (getLogLevel false 0 = some 4 ∧ getLogLevel false 1 = some 0 ∧ getLogLevel false 2 = some (-4)) ∧
    (∀ v : Int, getLogLevel true v = some 8) ∧ levelWarn = 4 := by
  have h0 : getLogLevel false 0 = some levelWarn := by decide
  have h1 : getLogLevel false 1 = some levelInfo := by decide
  have h2 : getLogLevel false 2 = some levelDebug := by decide
  have hbig : ∀ v : Int, 2 ≤ v → getLogLevel false v = getLogLevel false 2 := by
    intro v hv
    by_cases h : v = 2
    · rw [h]
    · have hlen : v ≥ (logLevels.length : Int) := by
        have : (logLevels.length : Int) = 3 := rfl
        omega
      have : getLogLevel false v = some levelDebug := by
        show (if (if v ≥ (logLevels.length : Int) then (logLevels.length : Int) - 1 else v) < 0 then none
          else logLevels[(if v ≥ (logLevels.length : Int) then (logLevels.length : Int) - 1 else v).toNat]?) = some levelDebug
        have e : (if v ≥ (logLevels.length : Int) then (logLevels.length : Int) - 1 else v) = 2 := by
          split
          · rfl
          · contradiction
        simp only [e]
        rfl
      rw [this, h2]
  have hval : ∀ v : Int, 0 ≤ v → v = 0 ∨ v = 1 ∨ 2 ≤ v := by intro v hv; omega
  refine ⟨?_, ?_, hbig, ⟨h0, h1, h2⟩, fun v => rfl, rfl⟩
  · intro v hv
    rcases hval v hv with rfl | rfl | h
    · exact ⟨_, h0, by decide⟩
    · exact ⟨_, h1, by decide⟩
    · exact ⟨_, by rw [hbig v h, h2], by decide⟩
  · intro v w l k hv hvw hl hk
    have hw : 0 ≤ w := by omega
    rcases hval v hv with rfl | rfl | h <;> rcases hval w hw with rfl | rfl | h'
    all_goals first
      | omega
      | (first | rw [h0] at hl | rw [h1] at hl | rw [hbig v h, h2] at hl
         first | rw [h0] at hk | rw [h1] at hk | rw [hbig w h', h2] at hk
         simp only [Option.some.injEq] at hl hk
         subst hl; subst hk; decide)

/-- A negative count (the flag parser accepts `--verbose=-1`) makes the program panic. -/
theorem C61_negative_crashes (v : Int) (h : v < 0) : getLogLevel false v = none := by
  show (if (if v ≥ (logLevels.length : Int) then (logLevels.length : Int) - 1 else v) < 0 then none
    else logLevels[(if v ≥ (logLevels.length : Int) then (logLevels.length : Int) - 1 else v).toNat]?) = none
  have hlen : (logLevels.length : Int) = 3 := rfl
  have e : (if v ≥ (logLevels.length : Int) then (logLevels.length : Int) - 1 else v) = v := by
    split
    · omega
    · rfl
  simp only [e]
  split
  · rfl
  · contradiction

/-- **C41** (environment): a packages driver counts as configured exactly if the variable is set to something other than `off`
(so also if it is set to the empty string). -/
theorem C41_driver_configured (S : Surroundings) (sh : SharedFlags) (o : IndexOpts) (l : Level) (h : makeOptions S sh = .ok (o, l)) :
    o.isGoPackagesDriverSet = true ↔ ∃ v, S.driver = some v ∧ v ≠ go!"off" := by
  unfold makeOptions at h
  split at h
  · simp at h
  · split at h
    · simp at h
    · split at h
      · simp at h
      · simp at h
      · simp only [Res.ok.injEq, Prod.mk.injEq] at h
        obtain ⟨rfl, _⟩ := h
        simp only
        cases S.driver with
        | none => simp [driverSet]
        | some d => by_cases hd : d = go!"off" <;> simp [driverSet, hd]

/-- Options are taken over from flags and environment without change; the level is that of C61. -/
theorem C41_options_taken_over (S : Surroundings) (sh : SharedFlags) (o : IndexOpts) (l : Level) (h : makeOptions S sh = .ok (o, l)) :
    S.abs sh.moduleRoot = .ok o.moduleRoot ∧ S.moduleName o.moduleRoot sh.repositoryRemote sh.modulePath = .ok (o.modulePath, o.isIndexingStdlib) ∧
      getLogLevel sh.quiet sh.verbose = some l ∧ o.moduleVersion = sh.moduleVersion ∧ o.goStdlibVersion = sh.goVersion ∧
      o.skipImplementations = sh.skipImplementations ∧ o.skipTests = sh.skipTests ∧ o.packagePatterns = sh.packagePatterns ∧
      o.arguments = S.args := by
  unfold makeOptions at h
  split at h
  · simp at h
  · rename_i root hroot
    split at h
    · simp at h
    · rename_i lev hlev
      split at h
      · simp at h
      · simp at h
      · rename_i path std hmod
        simp only [Res.ok.injEq, Prod.mk.injEq] at h
        obtain ⟨rfl, rfl⟩ := h
        exact ⟨hroot, hmod, hlev, rfl, rfl, rfl, rfl, rfl, rfl⟩

/-! ## The output file -/

theorem contentAfter_snoc (disk : Disk) (ms : List Index.Message) (m : Index.Message) :
    contentAfter disk (ms ++ [m]) = contentAfter disk ms ++ appended disk (contentAfter disk ms) m := by
  simp [contentAfter, List.foldl_append]

theorem Spec.Marshalled.snoc {ms : List Index.Message} {bs : List Bytes} (h : Spec.Marshalled ms bs) {m : Index.Message} {b : Bytes}
    (hm : marshal (indexOf m) = some b) : Spec.Marshalled (ms ++ [m]) (bs ++ [b]) := by
  induction h with
  | nil => exact .cons hm .nil
  | cons h1 _ ih => exact .cons h1 ih

/-- If every write succeeded, the file is the concatenation of the messages. -/
theorem content_of_success (disk : Disk) (ms : List Index.Message) (h : ∀ a m b, ms = a ++ m :: b → writer disk a m = none) :
    ∃ bs, Spec.Marshalled ms bs ∧ contentAfter disk ms = bs.flatten := by
  generalize hn : ms.length = n
  induction n generalizing ms with
  | zero =>
    have : ms = [] := List.length_eq_zero_iff.1 hn
    subst this
    exact ⟨[], .nil, rfl⟩
  | succ n ih =>
    obtain ⟨l, m, rfl⟩ : ∃ l m, ms = l ++ [m] := by
      have hne : ms ≠ [] := by intro h; rw [h] at hn; simp at hn
      exact ⟨ms.dropLast, ms.getLast hne, (List.dropLast_append_getLast hne).symm⟩
    obtain ⟨bs, hbs, hc⟩ := ih l (fun a m' b e => h a m' (b ++ [m]) (by rw [e]; simp)) (by simpa using hn)
    have hw := h l m [] rfl
    unfold writer at hw
    split at hw
    · simp at hw
    · rename_i b hb
      split at hw
      · rename_i hd
        refine ⟨bs ++ [b], hbs.snoc hb, ?_⟩
        rw [contentAfter_snoc, hc]
        simp [appended, hb, ← hc, hd]
      · simp at hw

/-- `index.Index` as called by the program: options are taken from the command line options, loading is a parameter. -/
def indexingOf (D : Index.Deps) (ord : Index.MapOrders) (load : IndexOpts → Except Str (GoMap Index.Package × GoMap Index.Package)) :
    IndexOpts → Index.Writer → Index.Run :=
  fun o w => Index.index D ⟨o.moduleRoot, o.moduleVersion, o.skipImplementations, o.arguments⟩ ord w (load o)

/-- Metadata is written once. -/
theorem one_metadata (D : Index.Deps) (o : Index.Opts) (ord : Index.MapOrders) (w : Index.Writer)
    (loaded : Except Str (GoMap Index.Package × GoMap Index.Package)) : (Spec.metadataOf (Index.index D o ord w loaded).messages).length ≤ 1 := by
  obtain ⟨md, ds, es, he, _, _, _, _, _, _, hd, hx, _⟩ := C49_message_order D o ord w loaded
  rw [he]
  have h : ∀ l : List Index.Message, (∀ m ∈ l, Spec.isDocument m ∨ Spec.isExternal m) → Spec.metadataOf l = [] := by
    intro l hl
    refine List.filterMap_eq_nil_iff.2 ?_
    intro m hm
    rcases hl m hm with h | h
    · cases m <;> first | rfl | exact h.elim
    · cases m <;> first | rfl | exact h.elim
  have hrest := h (ds ++ es) (by
    intro m hm
    rcases List.mem_append.1 hm with hm | hm
    · exact .inl (hd m hm)
    · exact .inr (hx m hm))
  have : Spec.metadataOf (Index.Message.metadata md :: (ds ++ es)) = [metadata md] := by
    have : Spec.metadataOf (Index.Message.metadata md :: (ds ++ es)) = metadata md :: Spec.metadataOf (ds ++ es) := by simp [Spec.metadataOf]
    rw [this, hrest]
  rw [this]
  simp

/-- The bytes `c` decode to the metadata, the documents and the external symbols among the messages of the run, in order. -/
def Spec.Decodes (c : Bytes) (ms : List Index.Message) : Prop :=
  c.length < 2 ^ 64 → Pb.Spec.unmarshal c =
    some { metadata := (metadataOf ms).head?, documents := documentsOf ms, externalSymbols := externalsOf ms }

/-- **C52** (whole program): if indexing reports success, what was written decodes to exactly the messages of the run — whatever
writing does. -/
theorem C52_successful_run_decodes (D : Index.Deps) (ord : Index.MapOrders)
    (load : IndexOpts → Except Str (GoMap Index.Package × GoMap Index.Package)) (o : IndexOpts) (disk : Disk)
    (h : (indexingOf D ord load o (writer disk)).outcome = .ok) :
    Spec.Decodes (contentAfter disk (indexingOf D ord load o (writer disk)).messages) (indexingOf D ord load o (writer disk)).messages := by
  intro hsize
  have h4 := (C50_write_failure D ⟨o.moduleRoot, o.moduleVersion, o.skipImplementations, o.arguments⟩ ord (writer disk) (load o)).2.2.2 h
  obtain ⟨bs, hbs, hc⟩ := content_of_success disk (indexingOf D ord load o (writer disk)).messages (fun a m b e => h4 a m b e)
  rw [hc] at hsize ⊢
  exact C52_file_decodes _ _ hbs (one_metadata _ _ _ _ _) hsize

/-- The bytes `c` are the whole messages of a beginning of `ms` and possibly a beginning of the next one, which is then the last. -/
def Spec.Beginning (c : Bytes) (ms : List Index.Message) : Prop :=
  ∃ (whole : List Index.Message) (bs : List Bytes), Marshalled whole bs ∧
    ((ms = whole ∧ c = bs.flatten) ∨
     ∃ m part, ms = whole ++ [m] ∧ c = bs.flatten ++ part ∧ (part = [] ∨ ∃ b, marshal (indexOf m) = some b ∧ part <+: b))

theorem content_beginning (disk : Disk) (ms : List Index.Message) (h : ∀ a m b, ms = a ++ m :: b → b ≠ [] → writer disk a m = none) :
    Spec.Beginning (contentAfter disk ms) ms := by
  by_cases hne : ms = []
  · subst hne
    exact ⟨[], [], .nil, .inl ⟨rfl, rfl⟩⟩
  · obtain ⟨l, m, rfl⟩ : ∃ l m, ms = l ++ [m] := ⟨ms.dropLast, ms.getLast hne, (List.dropLast_append_getLast hne).symm⟩
    obtain ⟨bs, hbs, hc⟩ := content_of_success disk l (fun a m' b e => h a m' (b ++ [m]) (by rw [e]; simp) (by simp))
    refine ⟨l, bs, hbs, .inr ⟨m, appended disk (contentAfter disk l) m, rfl, ?_, ?_⟩⟩
    · rw [contentAfter_snoc, hc]
    · unfold appended
      split
      · exact .inl rfl
      · rename_i b hb
        refine .inr ⟨b, hb, ?_⟩
        split
        · exact List.prefix_refl _
        · exact List.take_prefix _ _

/-- **C54**, what can be left over: whatever writing does and however the run ends, the bytes of the index on standard output, or in the file if it could not
be removed, are whole messages of the run in order, and possibly a beginning of the one whose writing failed; and the file stays if it
cannot be examined or removed. -/
theorem C54_incomplete_output (D : Index.Deps) (ord : Index.MapOrders)
    (load : IndexOpts → Except Str (GoMap Index.Package × GoMap Index.Package)) (W : World) (profile : Int) (output : Str)
    (o : IndexOpts) (before : Target) (hp : 0 < profile → W.createProfile = none) :
    let r := Cmd.run W profile output (.ok o) (indexingOf D ord load) before
    let ms := (indexingOf D ord load o (writer W.disk)).messages
    (output = go!"-" → Spec.Beginning r.piped ms ∧ r.target = before) ∧
    (output ≠ go!"-" → W.create = none → r.piped = [] ∧ (∀ c, r.target = .regular c → Spec.Beginning c ms) ∧
      (before ≠ .special → (W.statOk = false ∨ W.removeOk = false) → ∃ c, r.target = .regular c)) := by
  intro r ms
  have hb : Spec.Beginning (contentAfter W.disk ms) ms :=
    content_beginning W.disk ms (fun a m b e hne =>
      (C50_write_failure D ⟨o.moduleRoot, o.moduleVersion, o.skipImplementations, o.arguments⟩ ord (writer W.disk) (load o)).2.1 a m b e hne)
  have hprof : (if profile > 0 then W.createProfile else none) = none := by
    split
    · rename_i h; exact hp h
    · rfl
  have hr : r = Cmd.run W profile output (.ok o) (indexingOf D ord load) before := rfl
  have hms : contentAfter W.disk ms = contentAfter W.disk (indexingOf D ord load o (writer W.disk)).messages := rfl
  rw [hms] at hb
  clear_value r
  unfold Cmd.run at hr
  simp only [hprof] at hr
  refine ⟨?_, ?_⟩
  · intro hout
    simp only [hout, if_true] at hr
    cases hoc : (indexingOf D ord load o (writer W.disk)).outcome <;> simp only [hoc] at hr <;> rw [hr] <;> exact ⟨hb, rfl⟩
  · intro hout hcr
    simp only [hout, if_false, hcr] at hr
    cases before <;> simp only [createdTarget] at hr <;>
      cases hoc : (indexingOf D ord load o (writer W.disk)).outcome <;> simp only [hoc] at hr <;> rw [hr] <;>
      refine ⟨rfl, ?_, ?_⟩ <;> simp only
    all_goals first
      | (intro c hc; simp only [Target.regular.injEq] at hc; rw [← hc]; exact hb)
      | (intro c hc; split at hc
         · simp at hc
         · simp only [Target.regular.injEq] at hc; rw [← hc]; exact hb)
      | (intro hsp; exact absurd rfl hsp)
      | (intro _ h; exact ⟨_, rfl⟩)
      | (intro _ h; rcases h with h | h <;> simp [h])
      | simp

/-- **C54.** If the program reports an error (and `os.Stat` and `os.Remove` work), no partial output remains: what is at the output
path is what was there before, or nothing.  It is what was there before if the options, the profile or creating the file were
the cause, if the output is standard output, or if it is not a regular file. -/
theorem C54_failed_run_leaves_nothing (W : World) (profile : Int) (output : Str) (options : Res IndexOpts)
    (indexing : IndexOpts → Index.Writer → Index.Run) (before : Target) (e : Str) (hs : W.statOk = true) (hr : W.removeOk = true)
    (he : (Cmd.run W profile output options indexing before).exit = .error e) :
    let after := (Cmd.run W profile output options indexing before).target
    (after = before ∨ after = .absent) ∧
    (output = go!"-" ∨ before = .special ∨ (∀ o, options ≠ .ok o) ∨ W.create.isSome ∨ (0 < profile ∧ W.createProfile.isSome) → after = before) ∧
    (∀ o, options = .ok o → output ≠ go!"-" → before ≠ .special → W.create = none → (profile > 0 → W.createProfile = none) → after = .absent) := by
  intro after
  change (_ ∨ _) ∧ _
  have hafter : after = (Cmd.run W profile output options indexing before).target := rfl
  unfold Cmd.run at he hafter
  split at he
  · rename_i e' hp
    rw [hp] at hafter
    simp only at hafter
    refine ⟨.inl hafter, fun _ => hafter, ?_⟩
    intro o _ _ _ _ hpr
    split at hp
    · rename_i h; rw [hpr h] at hp; simp at hp
    · simp at hp
  · rename_i hp
    rw [hp] at hafter
    simp only at hafter
    cases options with
    | error e' => simp only at hafter; exact ⟨.inl hafter, fun _ => hafter, fun o h => by simp at h⟩
    | crash => simp at he
    | ok o =>
      simp only at he hafter
      by_cases ho : output = go!"-"
      · rw [if_pos ho] at hafter
        have hb : after = before := by
          rw [hafter]
          cases (indexing o (writer W.disk)).outcome <;> rfl
        exact ⟨.inl hb, fun _ => hb, fun _ _ h => absurd ho h⟩
      · rw [if_neg ho] at he hafter
        cases hc : W.create with
        | some e' =>
          rw [hc] at hafter
          exact ⟨.inl hafter, fun _ => hafter, fun _ _ _ _ h => by simp at h⟩
        | none =>
          rw [hc] at he hafter
          simp only at he hafter
          cases hout : (indexing o (writer W.disk)).outcome with
          | ok => rw [hout] at he; simp at he
          | crash => rw [hout] at he; simp at he
          | failed e' =>
            rw [hout] at hafter
            simp only [hs, hr, Bool.and_true, if_true] at hafter
            cases before with
            | special =>
              have hb : after = .special := by rw [hafter]; rfl
              exact ⟨.inl hb, fun _ => hb, fun _ _ _ h => absurd rfl h⟩
            | absent =>
              have hb : after = .absent := by rw [hafter]; rfl
              exact ⟨.inl hb, fun _ => hb, fun _ _ _ _ _ _ => hb⟩
            | regular c =>
              have hb : after = .absent := by rw [hafter]; rfl
              refine ⟨.inr hb, ?_, fun _ _ _ _ _ _ => hb⟩
              rintro (h | h | h | h | h)
              · exact absurd h ho
              · simp at h
              · exact absurd rfl (h o)
              · simp at h
              · split at hp
                · rw [hp] at h; simp at h
                · rename_i hpos; exact absurd h.1 hpos

/-- The program with the real indexer: all or nothing. For a well-typed project and a file system whose `Stat` and `Remove` work, after
the run the output path holds what was there before, nothing, or a complete index: it decodes to the messages of a run that
reported success. -/
theorem C54_all_or_nothing (D : Index.Deps) (ord : Index.MapOrders)
    (load : IndexOpts → Except Str (GoMap Index.Package × GoMap Index.Package)) (W : World) (profile : Int) (output : Str)
    (options : Res IndexOpts) (before : Target) (hs : W.statOk = true) (hr : W.removeOk = true)
    (htyped : ∀ o project all, load o = .ok (project, all) → ∃ objs, Spec.TypedProject D project all objs ∧ ExtractorOk D all)
    (hv : Spec.ValidMapOrders ord) :
    let r := Cmd.run W profile output options (indexingOf D ord load) before
    r.target = before ∨ r.target = .absent ∨
      ∃ o c, options = .ok o ∧ r.target = .regular c ∧ r.exit = .ok () ∧ (indexingOf D ord load o (writer W.disk)).outcome = .ok ∧
        Spec.Decodes c (indexingOf D ord load o (writer W.disk)).messages := by
  intro r
  cases hex : r.exit with
  | error e =>
    rcases (C54_failed_run_leaves_nothing W profile output options (indexingOf D ord load) before e hs hr hex).1 with h | h
    · exact .inl h
    · exact .inr (.inl h)
  | crash =>
    left
    have hr' : r = Cmd.run W profile output options (indexingOf D ord load) before := rfl
    rw [hr'] at hex ⊢
    clear hr'
    unfold Cmd.run at hex ⊢
    split at hex
    · simp at hex
    · rename_i hp
      simp only
      cases options with
      | error => simp at hex
      | crash => rfl
      | ok o =>
        simp only at hex ⊢
        have hno : (indexingOf D ord load o (writer W.disk)).outcome ≠ .crash := by
          unfold indexingOf
          cases hl : load o with
          | error e' =>
            unfold Index.index
            simp only
            split <;> simp
          | ok pa =>
            obtain ⟨objs, ht, hx⟩ := htyped o pa.1 pa.2 hl
            exact (C74_never_crashes D _ ord (writer W.disk) pa.1 pa.2 objs ht hx hv).1
        by_cases ho : output = go!"-"
        · rw [if_pos ho] at hex ⊢
          cases hout : (indexingOf D ord load o (writer W.disk)).outcome with
          | crash => exact absurd hout hno
          | ok => rw [hout] at hex; first | done | simp at hex
          | failed e => rw [hout] at hex; first | done | simp at hex
        · rw [if_neg ho] at hex ⊢
          cases hc : W.create with
          | some e => rfl
          | none =>
            rw [hc] at hex
            simp only at hex ⊢
            cases hout : (indexingOf D ord load o (writer W.disk)).outcome with
            | crash => exact absurd hout hno
            | ok => rw [hout] at hex; simp at hex
            | failed e => rw [hout] at hex; simp at hex
  | ok u =>
    have hr' : r = Cmd.run W profile output options (indexingOf D ord load) before := rfl
    rw [hr'] at hex ⊢
    clear hr'
    unfold Cmd.run at hex ⊢
    split at hex
    · simp at hex
    · rename_i hp
      simp only
      cases options with
      | error => simp at hex
      | crash => simp at hex
      | ok o =>
        simp only at hex ⊢
        by_cases ho : output = go!"-"
        · rw [if_pos ho]
          left
          cases (indexingOf D ord load o (writer W.disk)).outcome <;> rfl
        · rw [if_neg ho] at hex ⊢
          cases hc : W.create with
          | some e => rw [hc] at hex; simp at hex
          | none =>
            rw [hc] at hex
            simp only at hex ⊢
            cases hout : (indexingOf D ord load o (writer W.disk)).outcome with
            | crash => rw [hout] at hex; simp at hex
            | failed e => rw [hout] at hex; simp at hex
            | ok =>
              simp only
              cases before with
              | special => exact .inl rfl
              | absent => exact .inr (.inr ⟨o, _, rfl, rfl, trivial, hout, C52_successful_run_decodes D ord load o W.disk hout⟩)
              | regular c => exact .inr (.inr ⟨o, _, rfl, rfl, trivial, hout, C52_successful_run_decodes D ord load o W.disk hout⟩)

end Verif
