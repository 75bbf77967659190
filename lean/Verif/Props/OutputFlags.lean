import Verif.Spec.OutputFlags
import Verif.Props.Text
/-! # C98: `--quiet`, `--verbose`, `--output` and `--profile-rate` do not change the content of the index -/
namespace Verif
open Spec Index Program Loader Loader.Spec Cmd Commands

section
variable (D : Deps) (ord : MapOrders)

/-- Writing documents after another first message. -/
theorem writeDocuments_first (heap : Impl.Heap) (docs : Docs) (fs : List (Package × SourceFile)) (g : Global) (x y : Message) (t : List Message) :
    ∃ rest, (writeDocuments D ord (fun _ _ => none) heap docs fs g (x :: t)).messages = x :: rest ∧
      (writeDocuments D ord (fun _ _ => none) heap docs fs g (y :: t)).messages = y :: rest ∧
      (writeDocuments D ord (fun _ _ => none) heap docs fs g (x :: t)).outcome = (writeDocuments D ord (fun _ _ => none) heap docs fs g (y :: t)).outcome := by
  induction fs generalizing g t with
  | nil => exact ⟨t, rfl, rfl, rfl⟩
  | cons e fs ih =>
    obtain ⟨p, f⟩ := e
    simp only [writeDocuments]
    cases docs.get f.fileName with
    | none => exact ih g t
    | some d =>
      simp only [List.length_cons]
      cases visitFile D ord heap (t.length + 1) p f d g with
      | none => exact ⟨t, rfl, rfl, rfl⟩
      | some mg => exact ih mg.2 (t ++ [mg.1])

theorem writeExternals_first (es : List Message) (done : List Message) :
    writeExternals (fun _ _ => none) es done = ⟨done ++ es, .ok⟩ := by
  induction es generalizing done with
  | nil => simp [writeExternals]
  | cons m es ih => simp [writeExternals, ih]

/-- The recorded arguments are only in the metadata. -/
theorem index_arguments (o : Index.Opts) (arguments : List Str) (loaded : Except Str (GoMap Package × GoMap Package)) :
    ∃ rest, (index D o ord (fun _ _ => none) loaded).messages = .metadata (metadata D o) :: rest ∧
      (index D { o with arguments := arguments } ord (fun _ _ => none) loaded).messages =
        .metadata (metadata D { o with arguments := arguments }) :: rest ∧
      (index D o ord (fun _ _ => none) loaded).outcome = (index D { o with arguments := arguments } ord (fun _ _ => none) loaded).outcome := by
  unfold index
  simp only
  cases loaded with
  | error e => exact ⟨[], rfl, rfl, rfl⟩
  | ok pa =>
    obtain ⟨project, all⟩ := pa
    have e1 : indexVisitPackages { o with arguments := arguments } ord project all = indexVisitPackages o ord project all := rfl
    have e2 : ∀ g, implementations D { o with arguments := arguments } ord project all g = implementations D o ord project all g := fun _ => rfl
    simp only [e1]
    cases indexVisitPackages o ord project all with
    | none => exact ⟨[], rfl, rfl, rfl⟩
    | some dg =>
      simp only [e2]
      cases implementations D o ord project all dg.2 with
      | none => exact ⟨[], rfl, rfl, rfl⟩
      | some ghe =>
        simp only
        obtain ⟨rest, h1, h2, h3⟩ := writeDocuments_first D ord ghe.2.1 dg.1 (filesOf (sortedValues project)) ghe.1
          (.metadata (metadata D o)) (.metadata (metadata D { o with arguments := arguments })) []
        generalize writeDocuments D ord (fun _ _ => none) ghe.2.1 dg.1 (filesOf (sortedValues project)) ghe.1 [.metadata (metadata D o)] = A at h1 h3
        generalize writeDocuments D ord (fun _ _ => none) ghe.2.1 dg.1 (filesOf (sortedValues project)) ghe.1
          [.metadata (metadata D { o with arguments := arguments })] = B at h2 h3
        obtain ⟨am, ao⟩ := A
        obtain ⟨bm, bo⟩ := B
        simp only at h1 h2 h3
        subst h1 h2 h3
        cases ao with
        | ok =>
          simp only [writeExternals_first]
          exact ⟨rest ++ ghe.2.2, rfl, rfl, trivial⟩
        | failed e => exact ⟨rest, rfl, rfl, rfl⟩
        | crash => exact ⟨rest, rfl, rfl, rfl⟩

end

/-- A successful run is the run in which no write fails. -/
theorem ok_uncut {D : Deps} {o : Index.Opts} {ord : MapOrders} {w : Writer} {loaded : Except Str (GoMap Package × GoMap Package)}
    (h : (index D o ord w loaded).outcome = .ok) : index D o ord w loaded = index D o ord (fun _ _ => none) loaded :=
  (C50_cut_off D o ord w loaded).2 ((C50_write_failure D o ord w loaded).2.2.2 h)

/-- Two successful runs on the same packages, with other recorded arguments. -/
theorem C98_index (D : Deps) (answer : Query → Except Str Delivered) (env : Loader.Env) (order order' : Nat → Nat → List Nat)
    (fuel fuel' : Nat) (ord ord' : MapOrders) (o : Cmd.IndexOpts) (arguments : List Str) (w w' : Writer) (d : Delivered) (objs : List Obj)
    (hg : GoProgram d answer order o) (hg' : GoProgram d answer order' o) (ha : AlikeVariants d) (ht : TypedProgram d D objs)
    (hn : NamedProgram d D env o) (hv : ValidMapOrders ord) (hv' : ValidMapOrders ord')
    (hroot : o.moduleRoot = [] ∨ Absolute o.moduleRoot) (hdir : ∀ i, Reachable d.graph i → DirOk (identityOpts o) (d.info i))
    (r r' : Run) (hr : indexing D answer env order fuel ord o w = some r)
    (hr' : indexing D answer env order' fuel' ord' { o with arguments := arguments } w' = some r')
    (hok : r.outcome = .ok) (hok' : r'.outcome = .ok) : SameIndexButArguments r.messages r'.messages := by
  have hg'' : GoProgram d answer order' { o with arguments := arguments } := ⟨hg'.answer, hg'.order, hg'.paths, hg'.variants⟩
  obtain ⟨l, hl, rfl⟩ := indexing_ok hg hr hok
  obtain ⟨l', hl', rfl⟩ := indexing_ok hg'' hr' hok'
  have hl'' : LoadOk d env o order' fuel' l' := ⟨hl'.valid, hl'.noStd, hl'.variants, hl'.load⟩
  obtain ⟨hp, hal⟩ := same_loaded hl hl'' ha
  have ht1 := hl.typed ht
  have ht2 := hl''.typed ht
  have hcut := ok_uncut hok'
  rw [hcut]
  rw [hcut] at hok'
  obtain ⟨rest, h1, h2, h3⟩ := index_arguments D ord' (indexOpts o) arguments (.ok (projectOf d o l', allOf d o l'))
  change (index D _ ord' _ (.ok (projectOf d o l', allOf d o l'))).outcome = .ok at hok'
  change SameIndexButArguments _ (index D _ ord' _ (.ok (projectOf d o l', allOf d o l'))).messages
  have hok1 := h3.trans hok'
  have e := index_perm D (indexOpts o) ord' (fun _ _ => none) (all := allOf d o l) (all' := allOf d o l') ht1.project_keyed ht2.project_keyed hp
  have hsame : SameIndex (index D (indexOpts o) ord w (.ok (projectOf d o l, allOf d o l))).messages
      (index D (indexOpts o) ord' (fun _ _ => none) (.ok (projectOf d o l', allOf d o l'))).messages := by
    rw [e] at hok1 ⊢
    exact C69_same_index D (indexOpts o) ord _ w _ _ _ objs ht1 hv (ordersFor_valid hv' hp hal) (hl.named hn hroot hdir) hok hok1
  obtain ⟨md, ds, ds', es, es', q1, q2, q3, q4, q5⟩ := hsame
  rw [h1] at q2
  simp only [List.cons.injEq, Message.metadata.injEq] at q2
  obtain ⟨rfl, rfl⟩ := q2
  exact ⟨_, _, ds, ds', es, es', q1, h2, rfl, q3, q4, q5⟩

/-- What a successful command has written. -/
theorem command_ok {D : Deps} {answer : Query → Except Str Delivered} {env : Loader.Env} {order : Nat → Nat → List Nat}
    {fuel : Nat} {ord : MapOrders} {S : Surroundings} {sh : SharedFlags} {W : World} {profile : Int} {output : Str} {before : Target}
    {o : IndexOpts} {level : Level} (hS : makeOptions S sh = .ok (o, level)) (showTime : Int → Str) {shown : List Stdout.Shown}
    (hshown : Stdout.Program D answer env order fuel ord S sh W profile output shown) {r : Result}
    (hr : command D answer env order fuel ord S sh W profile output before = some r) (hok : (mainEnding (.ok ()) r.exit).status = 0) :
    ∃ run, indexing D answer env order fuel ord o (writer W.disk) = some run ∧ run.outcome = .ok ∧
      OutputHolds showTime sh.quiet output before r shown run.messages := by
  unfold command at hr
  rw [hS] at hr
  simp only [Option.map_eq_some_iff] at hr
  obtain ⟨loaded, hload, rfl⟩ := hr
  have hcmd : Stdout.Command S sh W profile output (fun _ => loaded) (indexingOf D ord fun _ => loaded) shown := by
    unfold Stdout.Program Stdout.Command at hshown
    unfold Stdout.Command
    rw [hS] at hshown ⊢
    simp only [hload, Option.getD_some] at hshown
    exact hshown
  have hpart : ∀ R, Cmd.run W profile output (.ok o) (fun o w => index D (indexOpts o) ord w loaded) before = R →
      (output = go!"-" → R.exit ≠ .crash → indexPart shown = R.piped) ∧ (output ≠ go!"-" → NoIndex shown ∧ R.piped = []) := by
    intro R hR
    have := C89_index_part D ord (fun _ => loaded) S sh W profile output before shown hcmd
    rw [hS] at this
    rw [← hR]
    exact this
  have hquiet : ∀ R, Cmd.run W profile output (.ok o) (fun o w => index D (indexOpts o) ord w loaded) before = R →
      sh.quiet = true → R.exit ≠ .crash → Stdout.render showTime shown = R.piped := by
    intro R hR hq
    have := (C89_standard_output_partial D ord (fun _ => loaded) showTime S sh W profile output before shown hq hcmd).2.1
    rw [hS] at this
    rw [← hR]
    exact this
  have hdec : (index D (indexOpts o) ord (writer W.disk) loaded).outcome = .ok →
      Decodes (contentAfter W.disk (index D (indexOpts o) ord (writer W.disk) loaded).messages)
        (index D (indexOpts o) ord (writer W.disk) loaded).messages :=
    C52_successful_run_decodes D ord (fun _ => loaded) o W.disk
  refine ⟨index D (indexOpts o) ord (writer W.disk) loaded, by unfold indexing; rw [hload]; rfl, ?_⟩
  generalize hR : Cmd.run W profile output (.ok o) (fun o w => index D (indexOpts o) ord w loaded) before = R at hok
  have hpart := hpart R hR
  have hquiet := hquiet R hR
  have hexit : R.exit = .ok () := by
    unfold mainEnding at hok
    cases h : R.exit <;> simp [h] at hok ⊢
  unfold Cmd.run at hR
  cases hp : (if profile > 0 then W.createProfile else none) with
  | some e => rw [hp] at hR; simp only at hR; subst hR; simp at hexit
  | none =>
    rw [hp] at hR
    simp only at hR
    generalize index D (indexOpts o) ord (writer W.disk) loaded = rr at *
    unfold OutputHolds
    by_cases ho : output = go!"-"
    · rw [if_pos ho] at hR ⊢
      cases hout : rr.outcome with
      | crash => rw [hout] at hR; simp only at hR; subst hR; simp at hexit
      | failed e => rw [hout] at hR; simp only at hR; subst hR; simp at hexit
      | ok =>
        rw [hout] at hR
        simp only at hR
        subst hR
        refine ⟨rfl, ?_, fun hq => ?_, rfl⟩
        · rw [hpart.1 ho (by simp)]; exact hdec hout
        · rw [hquiet hq (by simp)]; exact hdec hout
    · rw [if_neg ho] at hR ⊢
      cases hc : W.create with
      | some e => rw [hc] at hR; simp only at hR; subst hR; simp at hexit
      | none =>
        rw [hc] at hR
        simp only at hR
        cases hout : rr.outcome with
        | crash => rw [hout] at hR; simp only at hR; subst hR; simp at hexit
        | failed e => rw [hout] at hR; simp only at hR; subst hR; simp at hexit
        | ok =>
          rw [hout] at hR
          simp only at hR
          subst hR
          refine ⟨rfl, (hpart.2 ho).1, ?_⟩
          cases before with
          | special => exact .inl ⟨rfl, rfl⟩
          | absent => exact .inr ⟨by simp, _, rfl, hdec hout⟩
          | regular c => exact .inr ⟨by simp, _, rfl, hdec hout⟩

/-- The options of two invocations that differ in `--quiet`, `--verbose` and the recorded arguments only. -/
theorem sameCommand_options {S S' : Surroundings} {sh sh' : SharedFlags} (h : SameCommand S S' sh sh') {o o' : IndexOpts} {level level' : Level}
    (hS : makeOptions S sh = .ok (o, level)) (hS' : makeOptions S' sh' = .ok (o', level')) :
    o' = { o with arguments := S'.args } ∧ o.arguments = S.args := by
  obtain ⟨hf, hs⟩ := h
  unfold makeOptions at hS hS'
  rw [show S'.abs = S.abs by rw [hs], show S'.moduleName = S.moduleName by rw [hs], show S'.driver = S.driver by rw [hs],
    show sh'.moduleRoot = sh.moduleRoot by rw [hf], show sh'.repositoryRemote = sh.repositoryRemote by rw [hf],
    show sh'.modulePath = sh.modulePath by rw [hf]] at hS'
  cases h1 : S.abs sh.moduleRoot with
  | error e => rw [h1] at hS; simp at hS
  | ok root =>
    rw [h1] at hS hS'
    simp only at hS hS'
    cases h2 : getLogLevel sh.quiet sh.verbose with
    | none => rw [h2] at hS; simp at hS
    | some l =>
      cases h3 : getLogLevel sh'.quiet sh'.verbose with
      | none => rw [h3] at hS'; simp at hS'
      | some l' =>
        rw [h2] at hS
        rw [h3] at hS'
        simp only at hS hS'
        cases h4 : S.moduleName root sh.repositoryRemote sh.modulePath with
        | crash => rw [h4] at hS; simp at hS
        | error e => rw [h4] at hS; simp at hS
        | ok ps =>
          rw [h4] at hS hS'
          simp only [Res.ok.injEq, Prod.mk.injEq] at hS hS'
          rw [← hS.1, ← hS'.1, hf]
          exact ⟨rfl, rfl⟩

/-- **C98.** Invoke the command `index` twice on the same program, with other values of `--quiet`, `--verbose`, `--output` and `--profile-rate`, on
other disks, with something else at the output path before, in any orders of iteration.  If both succeed, then what they have written decodes to the
same index, but for the recorded arguments, which are those given. -/
theorem C98_same_index (D : Deps) (answer : Query → Except Str Delivered) (env : Loader.Env) (order order' : Nat → Nat → List Nat)
    (fuel fuel' : Nat) (ord ord' : MapOrders) (S S' : Surroundings) (sh sh' : SharedFlags) (hsame : SameCommand S S' sh sh')
    (W W' : World) (profile profile' : Int) (output output' : Str) (before before' : Target)
    (o : IndexOpts) (level : Level) (d : Delivered) (objs : List Obj) (hS : makeOptions S sh = .ok (o, level))
    (habs : ∀ p q, S.abs p = .ok q → Absolute q)
    (hg : GoProgram d answer order o) (hg' : GoProgram d answer order' o) (ha : AlikeVariants d) (ht : TypedProgram d D objs)
    (hn : NamedProgram d D env o) (hv : ValidMapOrders ord) (hv' : ValidMapOrders ord')
    (hdir : ∀ i, Reachable d.graph i → DirOk (identityOpts o) (d.info i)) (showTime : Int → Str) (shown shown' : List Stdout.Shown)
    (hshown : Stdout.Program D answer env order fuel ord S sh W profile output shown)
    (hshown' : Stdout.Program D answer env order' fuel' ord' S' sh' W' profile' output' shown')
    (r r' : Result) (hr : command D answer env order fuel ord S sh W profile output before = some r)
    (hr' : command D answer env order' fuel' ord' S' sh' W' profile' output' before' = some r')
    (hok : (mainEnding (.ok ()) r.exit).status = 0) (hok' : (mainEnding (.ok ()) r'.exit).status = 0) :
    ∃ ms ms', OutputHolds showTime sh.quiet output before r shown ms ∧ OutputHolds showTime sh'.quiet output' before' r' shown' ms' ∧
      SameIndexButArguments ms ms' ∧ (∃ md, ms[0]? = some (.metadata md) ∧ md.arguments = S.args) ∧
      (∃ md, ms'[0]? = some (.metadata md) ∧ md.arguments = S'.args) := by
  have hroot : o.moduleRoot = [] ∨ Absolute o.moduleRoot := .inr (habs _ _ (C41_options_taken_over S sh o level hS).1)
  obtain ⟨o', level', hS'⟩ : ∃ o' level', makeOptions S' sh' = .ok (o', level') := by
    unfold command at hr'
    cases h : makeOptions S' sh' with
    | ok x => exact ⟨x.1, x.2, rfl⟩
    | error e =>
      rw [h] at hr'
      simp only [Option.some.injEq] at hr'
      subst hr'
      unfold Cmd.run at hok'
      generalize (if profile' > 0 then W'.createProfile else none) = p at hok'
      cases p <;> simp [mainEnding] at hok'
    | crash =>
      rw [h] at hr'
      simp only [Option.some.injEq] at hr'
      subst hr'
      unfold Cmd.run at hok'
      generalize (if profile' > 0 then W'.createProfile else none) = p at hok'
      cases p <;> simp [mainEnding] at hok'
  obtain ⟨rfl, harg⟩ := sameCommand_options hsame hS hS'
  obtain ⟨run, h1, h2, h3⟩ := command_ok hS showTime hshown hr hok
  obtain ⟨run', h1', h2', h3'⟩ := command_ok hS' showTime hshown' hr' hok'
  have hfirst : ∀ {answer env order fuel ord o w run}, indexing D answer env order fuel ord o w = some run →
      run.messages[0]? = some (.metadata (metadata D (indexOpts o))) := by
    intro answer env order fuel ord o w run h
    unfold indexing at h
    rw [Option.map_eq_some_iff] at h
    obtain ⟨loaded, _, rfl⟩ := h
    exact index_first D (indexOpts o) ord w loaded
  refine ⟨run.messages, run'.messages, h3, h3', ?_, ⟨_, hfirst h1, harg⟩, ⟨_, hfirst h1', rfl⟩⟩
  exact C98_index D answer env order order' fuel fuel' ord ord' o S'.args _ _ d objs hg hg' ha ht hn hv hv' hroot hdir run run' h1 h1' h2 h2'

/-- Nor do these flags decide whether the options are accepted, unless `--verbose` has a negative value. -/
theorem sameCommand_accepted {S S' : Surroundings} {sh sh' : SharedFlags} (h : SameCommand S S' sh sh') (hv : sh'.quiet = true ∨ 0 ≤ sh'.verbose)
    {o : IndexOpts} {level : Level} (hS : makeOptions S sh = .ok (o, level)) : ∃ level', makeOptions S' sh' = .ok ({ o with arguments := S'.args }, level') := by
  obtain ⟨l', hl'⟩ : ∃ l', getLogLevel sh'.quiet sh'.verbose = some l' := by
    rcases hv with hq | hv
    · rw [hq]; exact ⟨levelError, rfl⟩
    · cases sh'.quiet with
      | true => exact ⟨levelError, rfl⟩
      | false => exact (C61_log_level.1 _ hv).imp fun _ h => h.1
  obtain ⟨o', hS'⟩ : ∃ o', makeOptions S' sh' = .ok (o', l') := by
    obtain ⟨hf, hs⟩ := h
    unfold makeOptions at hS ⊢
    rw [show S'.abs = S.abs by rw [hs], show S'.moduleName = S.moduleName by rw [hs], show sh'.moduleRoot = sh.moduleRoot by rw [hf],
      show sh'.repositoryRemote = sh.repositoryRemote by rw [hf], show sh'.modulePath = sh.modulePath by rw [hf], hl']
    cases h1 : S.abs sh.moduleRoot with
    | error e => rw [h1] at hS; simp at hS
    | ok root =>
      rw [h1] at hS
      simp only at hS ⊢
      cases h2 : getLogLevel sh.quiet sh.verbose with
      | none => rw [h2] at hS; simp at hS
      | some l =>
        rw [h2] at hS
        simp only at hS
        cases h4 : S.moduleName root sh.repositoryRemote sh.modulePath with
        | crash => rw [h4] at hS; simp at hS
        | error e => rw [h4] at hS; simp at hS
        | ok ps => exact ⟨_, rfl⟩
  exact ⟨l', by rw [hS', (sameCommand_options h hS hS').1]⟩

/-- **C98**, both succeed: if nothing outside fails in the second invocation and the arguments are UTF-8, the second succeeds if the options of the first
were accepted, except that `--verbose` with a negative value and without `--quiet` crashes. -/
theorem C98_succeeds (D : Deps) (answer : Query → Except Str Delivered) (env : Loader.Env) (order' : Nat → Nat → List Nat)
    (fuel' : Nat) (ord' : MapOrders) (S S' : Surroundings) (sh sh' : SharedFlags) (hsame : SameCommand S S' sh sh')
    (W' : World) (profile' : Int) (output' : Str) (before' : Target)
    (o : IndexOpts) (level : Level) (d : Delivered) (objs : List Obj) (hS : makeOptions S sh = .ok (o, level))
    (habs : ∀ p q, S.abs p = .ok q → Absolute q)
    (hg' : GoProgram d answer order' o) (ht : TypedProgram d D objs) (hsig : SignedProgram d D)
    (hv' : ValidMapOrders ord') (hdir : ∀ i, Reachable d.graph i → DirOk (identityOpts o) (d.info i))
    (htext : ProgramText d D env o) (harg : ∀ a ∈ S'.args, Text a) (hnothing : NothingFails W' profile' output' env)
    (r' : Result) (hr' : command D answer env order' fuel' ord' S' sh' W' profile' output' before' = some r') :
    (sh'.quiet = true ∨ 0 ≤ sh'.verbose → (mainEnding (.ok ()) r'.exit).status = 0) ∧
    (sh'.quiet = false → sh'.verbose < 0 → (mainEnding (.ok ()) r'.exit).status = 2 ∧ r'.target = before') := by
  constructor
  · intro hq
    obtain ⟨level', hS'⟩ := sameCommand_accepted hsame hq hS
    have habs' : ∀ p q, S'.abs p = .ok q → Absolute q := by rw [hsame.surroundings]; exact habs
    have hs := htext.surroundings
    exact C91_command D answer env order' fuel' ord' S' sh' W' profile' output' before' { o with arguments := S'.args } level' d objs hS' habs'
      ⟨hg'.answer, hg'.order, hg'.paths, hg'.variants⟩ ht hsig hv' hdir
      ⟨⟨hs.scopes, hs.toolVersion, hs.url, hs.root, hs.version, harg⟩, htext.modulePath, htext.goVersion, htext.packages, htext.replaced, htext.goMod⟩
      hnothing r' hr'
  · intro hq hneg
    have hS' : makeOptions S' sh' = .crash := by
      unfold makeOptions at hS ⊢
      rw [show S'.abs = S.abs by rw [hsame.surroundings], show sh'.moduleRoot = sh.moduleRoot by rw [hsame.flags], hq,
        C61_negative_crashes _ hneg]
      cases h1 : S.abs sh.moduleRoot with
      | error e => rw [h1] at hS; simp at hS
      | ok root => rfl
    unfold command at hr'
    rw [hS'] at hr'
    simp only [Option.some.injEq] at hr'
    subst hr'
    have hp : (if profile' > 0 then W'.createProfile else none) = none := by
      split
      · rename_i h; exact hnothing.profile h
      · rfl
    unfold Cmd.run
    rw [hp]
    exact ⟨rfl, rfl⟩

end Verif
