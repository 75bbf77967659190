import Verif.Spec.Stderr
import Verif.Props.Warnings
import Verif.Props.MainStatus
import Verif.Props.ProgramRelations
/-! # C105: what a run shows on standard error -/
namespace Verif
open Spec Index Program Loader Loader.Spec Cmd Git Commands Main Filepath Warnings Stderr

/-! ## Which records are shown -/

theorem level_cases {q : Bool} {v : Int} {l : Level} (h : getLogLevel q v = some l) :
    (q = true ∧ l = levelError) ∨ (q = false ∧ v = 0 ∧ l = levelWarn) ∨ (q = false ∧ 0 < v ∧ l ≤ levelInfo) := by
  obtain ⟨_, _, hbig, ⟨h0, h1, h2⟩, hq, _⟩ := C61_log_level
  cases q with
  | true => rw [hq v] at h; simp only [Option.some.injEq] at h; exact .inl ⟨rfl, h.symm⟩
  | false =>
    refine .inr ?_
    have : v < 0 ∨ v = 0 ∨ v = 1 ∨ 2 ≤ v := by omega
    rcases this with hv | rfl | rfl | hv
    · rw [C61_negative_crashes v hv] at h; simp at h
    · rw [h0] at h; simp only [Option.some.injEq] at h; exact .inl ⟨rfl, rfl, h.symm⟩
    · rw [h1] at h; simp only [Option.some.injEq] at h; subst h; exact .inr ⟨rfl, by omega, by decide⟩
    · rw [hbig v hv, h2] at h; simp only [Option.some.injEq] at h; subst h; exact .inr ⟨rfl, by omega, by decide⟩

theorem printed_visible {g : Given} {l : Level} (h : getLogLevel g.quiet g.verbose = some l) (rs : List Rec) : printed (some l) rs = visible g rs := by
  unfold printed visible
  rcases level_cases h with ⟨hq, rfl⟩ | ⟨hq, hv, rfl⟩ | ⟨hq, hv, hl⟩
  · simp [hq, levelError, levelWarn]
  · simp only [hq, hv, gt_iff_lt, lt_self_iff_false, if_false, Bool.false_eq_true, if_true]
    apply List.filter_congr
    intro r _
    cases r <;> simp [Rec.level, isSetting, levelInfo, levelWarn, levelError]
  · have h0 : l ≤ (0 : Int) := hl
    have h4 : l ≤ (4 : Int) := Int.le_trans h0 (by decide)
    have h8 : l ≤ (8 : Int) := Int.le_trans h0 (by decide)
    have hlt : ¬ l > levelWarn := Int.not_lt.2 h4
    simp only [hq, hlt, if_false, Bool.false_eq_true, show g.verbose ≠ 0 by omega]
    rw [List.filter_eq_self]
    intro r _
    cases r <;> simp [Rec.level, levelInfo, levelWarn, levelError, h0, h4, h8]

/-! ## The options -/

theorem parse_ok {Y : System} {steps : Nat} {g : Given} {α : Type} {c c' : α} {sh : SharedFlags}
    (h : parseArgs Y steps (.ok (g, c)) = some (.ok (sh, c'))) :
    c' = c ∧ ∃ dir D, defaultModuleRoot Y steps = some dir ∧ sh = sharedFlags dir D g := by
  unfold parseArgs at h
  simp only [Option.map_eq_some_iff] at h
  obtain ⟨dir, hdir, h⟩ := h
  split at h
  · simp at h
  · simp at h
  · rename_i D _
    simp only [Res.ok.injEq, Prod.mk.injEq] at h
    exact ⟨h.2.symm, dir, D, hdir, h.1.symm⟩

theorem driver_log (d : Option Str) : driverLog d = if driverSet d then [Rec.driver (d.getD [])] else [] := by
  cases d with
  | none => rfl
  | some d =>
    unfold driverLog driverSet
    by_cases h : d = go!"off" <;> simp [h]

/-- What is logged when the options are fine. -/
theorem makeOptionsLog_ok {Y : System} {dir : Str} {Ds : Defaults} {g : Given} {o : IndexOpts} {level : Level}
    (h : makeOptions (surroundings Y) (sharedFlags dir Ds g) = .ok (o, level)) :
    makeOptionsLog Y (sharedFlags dir Ds g) = (some level, moduleNotes Y g o ++ settings Y o) ∧ getLogLevel g.quiet g.verbose = some level := by
  unfold makeOptions at h
  cases ha : (surroundings Y).abs (sharedFlags dir Ds g).moduleRoot with
  | error e => rw [ha] at h; simp at h
  | ok root =>
    rw [ha] at h
    dsimp only at h
    cases hl : getLogLevel (sharedFlags dir Ds g).quiet (sharedFlags dir Ds g).verbose with
    | none => rw [hl] at h; simp at h
    | some l =>
      rw [hl] at h
      dsimp only at h
      cases hm : (surroundings Y).moduleName root (sharedFlags dir Ds g).repositoryRemote (sharedFlags dir Ds g).modulePath with
      | crash => rw [hm] at h; simp at h
      | error e => rw [hm] at h; simp at h
      | ok z =>
        obtain ⟨path, std⟩ := z
        rw [hm] at h
        simp only [Res.ok.injEq, Prod.mk.injEq] at h
        obtain ⟨rfl, rfl⟩ := h
        refine ⟨?_, hl⟩
        unfold makeOptionsLog
        rw [show Main.abs Y.getwd (sharedFlags dir Ds g).moduleRoot = .ok root from ha]
        dsimp only
        rw [hl]
        dsimp only
        rw [show Git.moduleName Y.modules root (sharedFlags dir Ds g).repositoryRemote (sharedFlags dir Ds g).modulePath = .ok (path, std) from hm]
        simp only [Prod.mk.injEq, true_and]
        congr 1
        · unfold moduleNameWarned moduleNotes
          have hmp : (sharedFlags dir Ds g).modulePath = [] ↔ (g.modulePath = none ∨ g.modulePath = some []) := by
            cases hg : g.modulePath <;> simp [sharedFlags, hg]
          by_cases he : (sharedFlags dir Ds g).modulePath = []
          · rw [if_neg (by simpa using he)]
            cases hr : Y.modules.readGoMod (goModIn root) with
            | none => rw [if_pos ⟨hmp.1 he, rfl⟩]; rfl
            | some data => rw [if_neg (by simp)]; rfl
          · rw [if_pos he, if_neg (fun h => he (hmp.2 h.1))]; rfl
        · simp only [settings, driver_log, surroundings]
          rfl

/-- Nothing is logged when they are not. -/
theorem makeOptionsLog_not {Y : System} {sh : SharedFlags} (h : ∀ o level, makeOptions (surroundings Y) sh ≠ .ok (o, level)) :
    (makeOptionsLog Y sh).2 = [] := by
  unfold makeOptions at h
  unfold makeOptionsLog
  cases ha : (surroundings Y).abs sh.moduleRoot with
  | error e => rw [show Main.abs Y.getwd sh.moduleRoot = .error e from ha]
  | ok root =>
    rw [ha] at h
    rw [show Main.abs Y.getwd sh.moduleRoot = .ok root from ha]
    dsimp only at h ⊢
    cases hl : getLogLevel sh.quiet sh.verbose with
    | none => rfl
    | some l =>
      rw [hl] at h
      dsimp only at h ⊢
      have hw : (∀ z, Git.moduleName Y.modules root sh.repositoryRemote sh.modulePath ≠ .ok z) → moduleNameWarned Y.modules root sh.modulePath = [] := by
        intro hz
        unfold moduleNameWarned
        split
        · rfl
        · rename_i hn
          cases hr : Y.modules.readGoMod (goModIn root) with
          | some _ => rfl
          | none =>
            exfalso
            simp only [ne_eq, not_not] at hn
            cases hrr : resolveModuleName Y.modules sh.repositoryRemote sh.repositoryRemote with
            | ok z => exact hz _ (by simp only [Git.moduleName, hn, hr, hrr]; rfl)
            | error e => exact hz _ (by simp only [Git.moduleName, hn, hr, hrr]; rfl)
      cases hm : Git.moduleName Y.modules root sh.repositoryRemote sh.modulePath with
      | ok z =>
        rw [show (surroundings Y).moduleName root sh.repositoryRemote sh.modulePath = .ok z from hm] at h
        exact absurd rfl (h _ _)
      | crash => rw [hw (by rw [hm]; simp)]; rfl
      | error e => rw [hw (by rw [hm]; simp)]; rfl

/-! ## Loading -/

theorem collectLog_nil {env : Loader.Env} {opts : Loader.Opts} {g : Graph} {order : Nat → Nat → List Nat} : ∀ (fuel : Nat) (st : St) (is : List Nat),
    collectLog env opts g order fuel st is = [] := by
  intro fuel
  induction fuel with
  | zero => intro st is; cases is <;> rfl
  | succ fuel ih =>
    intro st is
    cases is with
    | nil => rfl
    | cons i rest =>
      have hn := fun q => (C104_loading_silent [] ⟨[], [], []⟩ ⟨none, none, none, none, none, false, 0, false, false, []⟩ opts q).2
      unfold collectLog
      dsimp only
      rw [hn, ih]
      split
      · rfl
      · cases normalize env opts (st.pkgs i) with
        | none => rfl
        | some p => dsimp only; rw [ih]; rfl

theorem collectRootsLog_nil {env : Loader.Env} {opts : Loader.Opts} {g : Graph} {order : Nat → Nat → List Nat} {fuel : Nat} : ∀ (is : List Nat) (st : St),
    collectRootsLog env opts g order fuel st is = [] := by
  intro is
  induction is with
  | nil => intro st; rfl
  | cons i rest ih =>
    intro st
    unfold collectRootsLog
    rw [collectLog_nil]
    cases collect env opts g order fuel st [i] with
    | none => rfl
    | some r => cases r with
      | none => rfl
      | some st => exact ih st

/-- Loading warns of nothing if there are patterns. -/
theorem loadLog_nil {answer : Query → Except Str Delivered} {env : Loader.Env} {order : Nat → Nat → List Nat} {fuel : Nat} {o : IndexOpts}
    (h : o.packagePatterns ≠ []) : loadLog answer env order fuel o = [] := by
  unfold loadLog patternsWarned
  rw [if_neg h]
  cases answer (query o.moduleRoot o) with
  | error e => rfl
  | ok d => exact collectRootsLog_nil _ _

theorem parsedProject_of {d : Delivered} {env : Loader.Env} {o : IndexOpts} {project all : GoMap Package} (hm : ProgramMaps d env o project all)
    (hp : ParsedProgram d) : ParsedProject project := by
  have key : ∀ k p, (k, p) ∈ project → (∃ i, InProject d i ∧ (d.info i).path = k ∧ p.files = (d.package i).files) ∨ p.files = [] := by
    intro k p h
    obtain ⟨hall, r, hr, hk⟩ := (hm.project _ _).1 h
    rcases hm.chosen _ _ hall with ⟨i, hi, hik, path, v, _, he⟩ | ⟨_, _, he⟩
    · exact .inl ⟨i, ⟨hi.1, r, hr, hk.trans hik.symm⟩, hik, by rw [he]; rfl⟩
    · exact .inr (by rw [he]; rfl)
  refine ⟨?_, fun p h f hf => ?_⟩
  · unfold DistinctPlaces
    rw [List.nodup_flatMap]
    constructor
    · rintro ⟨k, p⟩ h
      rcases key k p h with ⟨i, hi, _, he⟩ | he
      · simp only [he]; exact hp.places i hi
      · simp only [he]; exact List.nodup_nil
    · have hnd : project.Pairwise (fun a b => a.1 ≠ b.1) := by
        have := hm.project_once
        unfold GoMap.keys at this
        exact List.pairwise_map.1 this
      refine (List.Pairwise.and_mem.1 hnd).imp ?_
      rintro ⟨k, p⟩ ⟨k', p'⟩ ⟨h1, h2, hne⟩
      show List.Disjoint (placesList (p.files.map SourceFile.node)) (placesList (p'.files.map SourceFile.node))
      rcases key k p h1 with ⟨i, hi, hik, he⟩ | he
      · rcases key k' p' h2 with ⟨j, hj, hjk, he'⟩ | he'
        · rw [he, he']
          intro a ha hb
          exact hp.apart i j hi hj (by rw [hik, hjk]; exact hne) a ha hb
        · rw [he']; intro a _ hb; simp [placesList] at hb
      · rw [he]; intro a ha; simp [placesList] at ha
  · rcases key _ p h with ⟨i, hi, _, he⟩ | he
    · rw [he] at hf; exact hp.specs i hi f hf
    · rw [he] at hf; simp at hf

/-! ## The error line -/

/-- **C105** (the error): a run prints a line with an error exactly if it ends with status 1, and apart from what it logs nothing else. -/
theorem C105_error_line (D : Deps) (answer : Query → Except Str Delivered) (env : Loader.Env) (order : Nat → Nat → List Nat) (steps fuel : Nat)
    (ord : MapOrders) (ord' : (GoMap Package → List Package) × (GoMap Package → List Package)) (Y : System) (W : World)
    (parsed : Except Str (Given × Selected)) (before : Target)
    (x : Main.Outcome) (hx : Main.main D answer env order steps fuel ord ord' Y W parsed before = some x) :
    (x.ending.status = 1 ∧ ∃ e, x.ending.stderr = go!"error: " ++ e ++ go!"\n") ∨ (x.ending.status ≠ 1 ∧ x.ending.stderr = []) := by
  have key : ∀ p r, ((mainEnding p r).status = 1 ∧ ∃ e, (mainEnding p r).stderr = go!"error: " ++ e ++ go!"\n") ∨
      ((mainEnding p r).status ≠ 1 ∧ (mainEnding p r).stderr = []) := by
    intro p r
    cases p with
    | error e => exact .inl ⟨rfl, e, rfl⟩
    | ok u =>
      cases r with
      | ok u => exact .inr ⟨by simp [mainEnding], rfl⟩
      | error e => exact .inl ⟨rfl, e, rfl⟩
      | crash => exact .inr ⟨by simp [mainEnding], rfl⟩
  unfold Main.main at hx
  split at hx
  · simp at hx
  · simp only [Option.some.injEq] at hx; subst hx; exact key _ _
  · simp only [Option.some.injEq] at hx; subst hx; exact key _ _
  · simp only [Option.map_eq_some_iff] at hx; obtain ⟨r, _, rfl⟩ := hx; exact key _ _
  · simp only [Option.map_eq_some_iff] at hx; obtain ⟨r, _, rfl⟩ := hx; exact key _ _
  · simp only [Option.map_eq_some_iff] at hx; obtain ⟨r, _, rfl⟩ := hx; exact key _ _

/-- **C105** (bad arguments): what is wrong with the command line is printed in the error line, with nothing before it, unless asking git and go already
made the program panic. -/
theorem C105_bad_arguments (D : Deps) (answer : Query → Except Str Delivered) (env : Loader.Env) (order : Nat → Nat → List Nat) (steps fuel : Nat)
    (ord : MapOrders) (ord' : (GoMap Package → List Package) × (GoMap Package → List Package)) (Y : System) (W : World) (P : ProfileEnd)
    (e : Str) (before : Target)
    (x : Main.Outcome) (hx : Main.main D answer env order steps fuel ord ord' Y W (.error e) before = some x) :
    mainLog D answer env order steps fuel ord ord' Y W P (.error e) = [] ∧ x.target = before ∧ x.piped = [] ∧ x.printed = [] ∧
    ∃ dir, defaultModuleRoot Y steps = some dir ∧
      ((BadAnswers Y dir ∧ x.ending.status = 2) ∨
       (¬ BadAnswers Y dir ∧ x.ending.status = 1 ∧ x.ending.stderr = go!"error: failed to parse args: " ++ e ++ go!"\n")) := by
  have hbad := fun dir => (C77_defaults_crash_iff Y.parseUrl Y.decode (Y.tools dir)).2
  unfold Main.main at hx
  unfold mainLog
  cases hp : parseArgs Y steps (.error e : Except Str (Given × Selected)) with
  | none => rw [hp] at hx; simp at hx
  | some res =>
    rw [hp] at hx
    unfold parseArgs at hp
    simp only [Option.map_eq_some_iff] at hp
    obtain ⟨dir, hdir, hp⟩ := hp
    cases hD : defaults Y.parseUrl Y.decode (Y.tools dir) with
    | error e' => exact absurd hD (defaults_not_error Y dir e')
    | crash =>
      rw [hD] at hp
      subst hp
      simp only [Option.some.injEq] at hx
      subst hx
      exact ⟨rfl, rfl, rfl, rfl, dir, hdir, .inl ⟨(hbad dir).1 hD, rfl⟩⟩
    | ok Ds =>
      rw [hD] at hp
      subst hp
      simp only [Option.some.injEq] at hx
      subst hx
      refine ⟨rfl, rfl, rfl, rfl, dir, hdir, .inr ⟨fun h => ?_, rfl, ?_⟩⟩
      · have := (hbad dir).2 h; rw [hD] at this; simp at this
      · simp [mainEnding]

/-! ## Quiet runs, and runs that do not start -/

theorem profileLog_eq (P : ProfileEnd) (profile : Int) : profileLog P profile = profileNotes P profile := by
  unfold profileLog profileNotes
  by_cases h : profile > 0
  · rw [if_pos h, if_pos h]
    cases P.write <;> cases P.close <;> rfl
  · rw [if_neg h, if_neg h]

theorem printed_sub {level : Option Level} {rs : List Rec} {r : Rec} (h : r ∈ printed level rs) : r ∈ rs := by
  unfold printed at h
  cases level with
  | none => exact (List.mem_filter.1 h).1
  | some l =>
    dsimp only at h
    split at h
    · simp at h
    · exact (List.mem_filter.1 h).1

/-- **C105** (quiet): with `--quiet` nothing is logged, whatever happens.  There is one exception: if the module root cannot be made absolute, the flag has not
been looked at when a wanted memory profile cannot be written. -/
theorem C105_quiet (D : Deps) (answer : Query → Except Str Delivered) (env : Loader.Env) (order : Nat → Nat → List Nat) (steps fuel : Nat)
    (ord : MapOrders) (ord' : (GoMap Package → List Package) × (GoMap Package → List Package)) (Y : System) (W : World) (P : ProfileEnd)
    (g : Given) (command : Selected) (hq : g.quiet = true) :
    mainLog D answer env order steps fuel ord ord' Y W P (.ok (g, command)) = [] ∨
    ∃ output profile dir e, command = .index output profile ∧ defaultModuleRoot Y steps = some dir ∧ Main.abs Y.getwd (g.moduleRoot.getD dir) = .error e ∧
      mainLog D answer env order steps fuel ord ord' Y W P (.ok (g, command)) = profileNotes P profile := by
  have hlev : ∀ dir Ds, (∃ rs, makeOptionsLog Y (sharedFlags dir Ds g) = (some levelError, rs)) ∨
      (makeOptionsLog Y (sharedFlags dir Ds g) = (none, []) ∧ (∃ e, Main.abs Y.getwd (g.moduleRoot.getD dir) = .error e) ∧
        ∀ z, makeOptions (surroundings Y) (sharedFlags dir Ds g) ≠ .ok z) := by
    intro dir Ds
    unfold makeOptionsLog
    have hg : getLogLevel (sharedFlags dir Ds g).quiet (sharedFlags dir Ds g).verbose = some levelError := by
      show getLogLevel g.quiet _ = _
      rw [hq]; rfl
    cases ha : Main.abs Y.getwd (sharedFlags dir Ds g).moduleRoot with
    | error e =>
      refine .inr ⟨rfl, ⟨e, ha⟩, fun z h => ?_⟩
      unfold makeOptions at h
      rw [show (surroundings Y).abs (sharedFlags dir Ds g).moduleRoot = .error e from ha] at h
      simp at h
    | ok root => rw [hg]; exact .inl ⟨_, rfl⟩
  have hpr : ∀ rs, printed (some levelError) rs = [] := fun rs => by
    unfold printed
    exact if_pos (by decide)
  unfold mainLog
  cases hp : parseArgs Y steps (.ok (g, command)) with
  | none => exact .inl rfl
  | some res =>
    cases res with
    | crash => exact .inl rfl
    | error e => exact .inl rfl
    | ok y =>
      obtain ⟨sh, c⟩ := y
      obtain ⟨rfl, dir, Ds, hdir, rfl⟩ := parse_ok hp
      cases c with
      | packages =>
        dsimp only
        unfold listingLog
        rcases hlev dir Ds with ⟨rs, h⟩ | ⟨h, he, hz⟩
        · rw [h]; exact .inl (hpr _)
        · rw [h]
          refine .inl ?_
          cases hm : makeOptions (surroundings Y) (sharedFlags dir Ds g) with
          | ok z => exact absurd hm (hz z)
          | error e => rfl
          | crash => rfl
      | missing =>
        dsimp only
        unfold listingLog
        rcases hlev dir Ds with ⟨rs, h⟩ | ⟨h, he, hz⟩
        · rw [h]; exact .inl (hpr _)
        · rw [h]
          refine .inl ?_
          cases hm : makeOptions (surroundings Y) (sharedFlags dir Ds g) with
          | ok z => exact absurd hm (hz z)
          | error e => rfl
          | crash => rfl
      | index output profile =>
        dsimp only
        unfold runLog
        cases hprof : (if profile > 0 then W.createProfile else none) with
        | some e => exact .inl rfl
        | none =>
          dsimp only
          rcases hlev dir Ds with ⟨rs, h⟩ | ⟨h, ⟨e, he⟩, hz⟩
          · rw [h]; exact .inl (hpr _)
          · rw [h]
            refine .inr ⟨output, profile, dir, e, rfl, hdir, he, ?_⟩
            rw [profileLog_eq]
            have hall : printed none (profileNotes P profile) = profileNotes P profile := by
              unfold printed
              rw [List.filter_eq_self]
              intro r hr
              unfold profileNotes at hr
              split at hr
              · simp only [List.mem_append, List.mem_map] at hr
                rcases hr with ⟨_, _, rfl⟩ | ⟨_, _, rfl⟩ <;> rfl
              · simp at hr
            cases hm : makeOptions (surroundings Y) (sharedFlags dir Ds g) with
            | ok z => exact absurd hm (hz z)
            | error e => exact hall
            | crash => exact hall

/-- **C105** (before loading): a run that does not get as far as loading packages logs nothing, except that a wanted memory profile could not be written. -/
theorem C105_not_started (D : Deps) (answer : Query → Except Str Delivered) (env : Loader.Env) (order : Nat → Nat → List Nat) (steps fuel : Nat)
    (ord : MapOrders) (ord' : (GoMap Package → List Package) × (GoMap Package → List Package)) (Y : System) (W : World) (P : ProfileEnd)
    (g : Given) (command : Selected) (h : ∀ dir o, defaultModuleRoot Y steps = some dir → ¬ Starts Y dir g o) :
    ∀ r ∈ mainLog D answer env order steps fuel ord ord' Y W P (.ok (g, command)),
      ∃ output profile, command = .index output profile ∧ r ∈ profileNotes P profile := by
  intro r hr
  unfold mainLog at hr
  cases hp : parseArgs Y steps (.ok (g, command)) with
  | none => rw [hp] at hr; simp at hr
  | some res =>
    rw [hp] at hr
    cases res with
    | crash => simp at hr
    | error e => simp at hr
    | ok y =>
      obtain ⟨sh, c⟩ := y
      obtain ⟨rfl, dir, Ds, hdir, rfl⟩ := parse_ok hp
      have hno : ∀ o level, makeOptions (surroundings Y) (sharedFlags dir Ds g) ≠ .ok (o, level) := fun o level hm =>
        h dir o hdir ((starts_iff hdir (c := c)).1 ⟨_, level, hp, hm⟩)
      have hlog := makeOptionsLog_not hno
      generalize hml : makeOptionsLog Y (sharedFlags dir Ds g) = ml at hlog
      obtain ⟨level, rs⟩ := ml
      dsimp only at hlog
      subst hlog
      cases c with
      | packages =>
        dsimp only at hr
        have := printed_sub hr
        unfold listingLog at this
        rw [hml] at this
        cases hm : makeOptions (surroundings Y) (sharedFlags dir Ds g) with
        | ok z => exact absurd hm (hno z.1 z.2)
        | error e => rw [hm] at this; simp at this
        | crash => rw [hm] at this; simp at this
      | missing =>
        dsimp only at hr
        have := printed_sub hr
        unfold listingLog at this
        rw [hml] at this
        cases hm : makeOptions (surroundings Y) (sharedFlags dir Ds g) with
        | ok z => exact absurd hm (hno z.1 z.2)
        | error e => rw [hm] at this; simp at this
        | crash => rw [hm] at this; simp at this
      | index output profile =>
        dsimp only at hr
        have := printed_sub hr
        unfold runLog at this
        cases hprof : (if profile > 0 then W.createProfile else none) with
        | some e => rw [hprof] at this; simp at this
        | none =>
          rw [hprof, hml] at this
          refine ⟨output, profile, rfl, ?_⟩
          rw [← profileLog_eq]
          cases hm : makeOptions (surroundings Y) (sharedFlags dir Ds g) with
          | ok z => exact absurd hm (hno z.1 z.2)
          | error e => rw [hm] at this; simpa using this
          | crash => rw [hm] at this; simpa using this

end Verif
