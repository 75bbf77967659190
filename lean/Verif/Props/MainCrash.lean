import Verif.Props.Main
import Verif.Spec.Status
/-! # C102: when the program panics, and that it ends -/
namespace Verif
open Spec Index Program Loader Loader.Spec Cmd Git Commands Main Filepath

/-- Whatever the go command delivers, it is a program without errors. -/
def Spec.GoodDeliveries (D : Deps) (answer : Query → Except Str Delivered) (order : Nat → Nat → List Nat) : Prop :=
  ∀ q d, answer q = .ok d → ValidOrder d.graph order ∧ NoStdPrefix d.info ∧ GoVariants d ∧ SignedProgram d D ∧ ∃ objs, TypedProgram d D objs

theorem level_none {q : Bool} {v : Int} : getLogLevel q v = none ↔ q = false ∧ v < 0 := by
  cases q with
  | true => simp [getLogLevel]
  | false =>
    constructor
    · intro h
      refine ⟨rfl, ?_⟩
      by_contra hv
      obtain ⟨l, hl, _⟩ := C61_log_level.1 v (by omega)
      rw [hl] at h; simp at h
    · rintro ⟨_, h⟩; exact C61_negative_crashes v h

theorem moduleName_crash {E : ModuleEnv} {dir repo inName : Str} : moduleName E dir repo inName = .crash ↔
    inName = [] ∧ ∃ data, E.readGoMod (goModIn dir) = some data ∧ E.parseGoMod data = .ok none := by
  unfold moduleName
  by_cases h : inName = []
  · simp only [h, ne_eq, not_true_eq_false, if_false, true_and]
    cases h1 : E.readGoMod (goModIn dir) with
    | none =>
      simp only [reduceCtorEq, false_and, exists_false, iff_false]
      cases h2 : resolveModuleName E repo repo <;> simp
    | some data =>
      simp only [Option.some.injEq, exists_eq_left']
      cases h2 : E.parseGoMod data with
      | error e => simp
      | ok m => cases m <;> simp
  · simp [h]

/-- When `makeOptions` panics. -/
theorem makeOptions_crash {S : Surroundings} {sh : SharedFlags} : makeOptions S sh = .crash ↔ ∃ root, S.abs sh.moduleRoot = .ok root ∧
    (getLogLevel sh.quiet sh.verbose = none ∨ S.moduleName root sh.repositoryRemote sh.modulePath = .crash) := by
  unfold makeOptions
  cases h1 : S.abs sh.moduleRoot with
  | error e => simp
  | ok root =>
    simp only [Except.ok.injEq, exists_eq_left']
    cases h2 : getLogLevel sh.quiet sh.verbose with
    | none => simp
    | some l =>
      simp only [reduceCtorEq, false_or]
      cases h3 : S.moduleName root sh.repositoryRemote sh.modulePath <;> simp

/-- When the command `index` panics on programs without errors. -/
theorem command_crash {D : Deps} {answer : Query → Except Str Delivered} {env : Loader.Env} {order : Nat → Nat → List Nat} {fuel : Nat} {ord : MapOrders}
    {S : Surroundings} {sh : SharedFlags} {W : World} {profile : Int} {output : Str} {before : Target} {r : Result}
    (hd : GoodDeliveries D answer order) (hv : ValidMapOrders ord)
    (hr : Program.command D answer env order fuel ord S sh W profile output before = some r) :
    r.exit = .crash ↔ (0 < profile → W.createProfile = none) ∧ makeOptions S sh = .crash := by
  have hprof : (if profile > 0 then W.createProfile else none) = none ↔ (0 < profile → W.createProfile = none) := by
    by_cases h : profile > 0 <;> simp [h]
  rw [← hprof]
  unfold Program.command at hr
  cases hS : makeOptions S sh with
  | error e =>
    rw [hS] at hr
    simp only [Option.some.injEq] at hr
    subst hr
    unfold Cmd.run
    cases hp : (if profile > 0 then W.createProfile else none) <;> simp
  | crash =>
    rw [hS] at hr
    simp only [Option.some.injEq] at hr
    subst hr
    unfold Cmd.run
    cases hp : (if profile > 0 then W.createProfile else none) <;> simp
  | ok x =>
    obtain ⟨o, level⟩ := x
    rw [hS] at hr
    simp only [Option.map_eq_some_iff] at hr
    obtain ⟨loaded, hload, rfl⟩ := hr
    simp only [reduceCtorEq, and_false, iff_false]
    have hrun : indexing D answer env order fuel ord o (writer W.disk) = some (index D (indexOpts o) ord (writer W.disk) loaded) := by
      unfold indexing; rw [hload]; rfl
    have hne : (index D (indexOpts o) ord (writer W.disk) loaded).outcome ≠ .crash := by
      cases ha : answer ⟨o.moduleRoot, !o.skipTests, if o.packagePatterns = [] then [go!"./..."] else o.packagePatterns⟩ with
      | error e =>
        obtain ⟨r, m, h1, _, e', h2, _⟩ := C82_go_command_fails D answer env order fuel ord o (writer W.disk) e ha
        rw [hrun] at h1
        simp only [Option.some.injEq] at h1
        rw [h1, h2]; simp
      | ok d =>
        obtain ⟨h1, h2, h3, h4, objs, h5⟩ := hd _ d ha
        exact (C82_never_crashes D answer env order fuel ord o (writer W.disk) d objs ⟨ha, h1, h2, h3⟩ h5 h4 hv _ hrun).1
    unfold Cmd.run
    cases hp : (if profile > 0 then W.createProfile else none) with
    | some e => simp
    | none =>
      simp only
      generalize index D (indexOpts o) ord (writer W.disk) loaded = rr at *
      split
      · cases hout : rr.outcome with
        | ok => simp
        | failed e => simp
        | crash => exact absurd hout hne
      · cases hc : W.create with
        | some e => simp
        | none =>
          simp only
          cases hout : rr.outcome with
          | ok => simp
          | failed e => simp
          | crash => exact absurd hout hne

theorem visitAllSyntax_some {root : Str} : ∀ (ps : List Package) (docs : Docs), (∀ p ∈ ps, FilesOk (p.files.map SourceFile.node)) →
    ∃ docs', listMissing.visitAllSyntax root ps docs = some docs'
  | [], docs, _ => ⟨docs, rfl⟩
  | p :: ps, docs, h => by
    obtain ⟨t, ht, _⟩ := C21_package_collected p.env _ (h p (by simp)) []
    unfold listMissing.visitAllSyntax visitSyntaxOf
    rw [ht]
    simp only [Option.map_some]
    exact visitAllSyntax_some ps _ fun q hq => h q (by simp [hq])

/-- When a listing command panics on programs without errors. -/
theorem listing_crash {D : Deps} {answer : Query → Except Str Delivered} {env : Loader.Env} {order : Nat → Nat → List Nat} {fuel : Nat}
    {ord' : (GoMap Package → List Package) × (GoMap Package → List Package)} (ho : ∀ m, (ord'.1 m).Perm (m.map (·.2)))
    (hd : GoodDeliveries D answer order) {options : Res (IndexOpts × Level)} :
    (∀ l, Main.listing answer env order fuel options (fun o => packagesRun o (packagesOf (loadFor answer env order fuel))) = some l →
      (l.exit = .crash ↔ options = .crash)) ∧
    (∀ l, Main.listing answer env order fuel options (fun o => missingRun o (missingOf ord'.1 ord'.2 (loadFor answer env order fuel))) = some l →
      (l.exit = .crash ↔ options = .crash)) := by
  cases options with
  | crash =>
    refine ⟨fun l h => ?_, fun l h => ?_⟩ <;> simp only [Main.listing, Option.some.injEq] at h <;> subst h <;> simp [packagesRun, missingRun]
  | error e =>
    refine ⟨fun l h => ?_, fun l h => ?_⟩ <;> simp only [Main.listing, Option.some.injEq] at h <;> subst h <;> simp [packagesRun, missingRun]
  | ok x =>
    obtain ⟨o, level⟩ := x
    refine ⟨fun l h => ?_, fun l h => ?_⟩ <;> simp only [Main.listing, Option.map_eq_some_iff] at h <;> obtain ⟨loaded, hload, rfl⟩ := h <;>
      simp only [reduceCtorEq, iff_false]
    · simp only [packagesRun, packagesOf, getPackages, loadFor, hload, Option.getD_some]
      cases loaded <;> simp
    · simp only [missingRun, missingOf, loadFor, hload, Option.getD_some]
      cases loaded with
      | error e => simp
      | ok y =>
        obtain ⟨project, all⟩ := y
        simp only
        have hsome : ∃ l, listMissing o.moduleRoot (ord'.1 project) (ord'.2 project) = some l := by
          unfold load at hload
          rw [query_eq] at hload
          cases ha : answer ⟨o.moduleRoot, !o.skipTests, if o.packagePatterns = [] then [go!"./..."] else o.packagePatterns⟩ with
          | error e => rw [ha] at hload; simp at hload
          | ok d =>
            rw [ha] at hload
            obtain ⟨h1, h2, h3, _, objs, h5⟩ := hd _ d ha
            simp only at hload
            split at hload
            · simp at hload
            · simp at hload
            · rename_i ld hld
              simp only [Option.some.injEq, Except.ok.injEq, Prod.mk.injEq] at hload
              obtain ⟨rfl, rfl⟩ := hload
              have hl : LoadOk d env o order fuel ld := ⟨h1, h2, h3, hld⟩
              have htp := hl.typed h5
              obtain ⟨docs, hdocs⟩ := visitAllSyntax_some (root := o.moduleRoot) (ord'.1 (projectOf d o ld)) [] (fun p hp => by
                obtain ⟨⟨k, p'⟩, hk, rfl⟩ := List.mem_map.1 ((ho _).subset hp)
                exact filesOk_of htp ((htp.project_keyed.2 k p' hk).symm ▸ hk))
              unfold listMissing
              rw [hdocs]
              exact ⟨_, rfl⟩
        obtain ⟨l, hl⟩ := hsome
        rw [hl]
        simp only
        split <;> simp

theorem defaults_not_error (Y : System) (dir e : Str) : defaults Y.parseUrl Y.decode (Y.tools dir) ≠ .error e := (C77_defaults_crash_iff _ _ _).1 e

/-- **C102.** For programs without errors, whatever else happens, every command panics (status 2) in exactly these situations: git's or go's answers in
the default module root are bad; or the arguments could be parsed, the flags are bad for the module root, and the command got as far as looking at
them (the working directory is known if it is needed; a profile, if asked for, could be created). -/
theorem C102_panics_iff (D : Deps) (answer : Query → Except Str Delivered) (env : Loader.Env) (order : Nat → Nat → List Nat) (steps fuel : Nat)
    (ord : MapOrders) (ord' : (GoMap Package → List Package) × (GoMap Package → List Package)) (Y : System) (W : World)
    (parsed : Except Str (Given × Selected)) (before : Target) (hd : GoodDeliveries D answer order) (hv : ValidMapOrders ord)
    (ho : ∀ m, (ord'.1 m).Perm (m.map (·.2)))
    (x : Main.Outcome) (hx : Main.main D answer env order steps fuel ord ord' Y W parsed before = some x) :
    ∃ dir, defaultModuleRoot Y steps = some dir ∧
      (x.ending.status = 2 ↔ BadAnswers Y dir ∨ ∃ g command root, parsed = .ok (g, command) ∧ Main.abs Y.getwd (g.moduleRoot.getD dir) = .ok root ∧
        BadFlags Y g root ∧ ∀ output profile, command = .index output profile → 0 < profile → W.createProfile = none) := by
  have st : ∀ r : Res Unit, (mainEnding (.ok ()) r).status = 2 ↔ r = .crash := by
    intro r; cases r <;> simp [mainEnding]
  unfold Main.main at hx
  cases hp : parseArgs Y steps parsed with
  | none => rw [hp] at hx; simp at hx
  | some res =>
    rw [hp] at hx
    unfold parseArgs at hp
    simp only [Option.map_eq_some_iff] at hp
    obtain ⟨dir, hdir, hp⟩ := hp
    refine ⟨dir, hdir, ?_⟩
    have hbad : defaults Y.parseUrl Y.decode (Y.tools dir) = .crash ↔ BadAnswers Y dir := (C77_defaults_crash_iff _ _ _).2
    cases hD : defaults Y.parseUrl Y.decode (Y.tools dir) with
    | error e => exact absurd hD (defaults_not_error Y dir e)
    | crash =>
      rw [hD] at hp
      simp only at hp
      subst hp
      simp only [Option.some.injEq] at hx
      subst hx
      simp only [mainEnding, true_iff]
      exact .inl (hbad.1 hD)
    | ok Df =>
      have hno : ¬ BadAnswers Y dir := fun h => by have := hbad.2 h; rw [hD] at this; simp at this
      simp only [hno, false_or]
      rw [hD] at hp
      simp only at hp
      cases parsed with
      | error e =>
        simp only at hp
        subst hp
        simp only [Option.some.injEq] at hx
        subst hx
        simp [mainEnding]
      | ok y =>
        obtain ⟨g, sel⟩ := y
        simp only at hp
        subst hp
        have hopt : makeOptions (surroundings Y) (sharedFlags dir Df g) = .crash ↔
            ∃ root, Main.abs Y.getwd (g.moduleRoot.getD dir) = .ok root ∧ BadFlags Y g root := by
          rw [makeOptions_crash]
          apply exists_congr
          intro root
          refine and_congr Iff.rfl ?_
          unfold BadFlags
          refine or_congr level_none ?_
          show moduleName Y.modules root _ (g.modulePath.getD []) = .crash ↔ _
          rw [moduleName_crash]
          refine and_congr ?_ Iff.rfl
          cases g.modulePath <;> simp
        have hright : (∃ g' command root, (Except.ok (g, sel) : Except Str _) = .ok (g', command) ∧
            Main.abs Y.getwd (g'.moduleRoot.getD dir) = .ok root ∧ BadFlags Y g' root ∧
            ∀ output profile, command = .index output profile → 0 < profile → W.createProfile = none) ↔
            (∀ output profile, sel = .index output profile → 0 < profile → W.createProfile = none) ∧
              makeOptions (surroundings Y) (sharedFlags dir Df g) = .crash := by
          rw [hopt]
          constructor
          · rintro ⟨g', c, root, e, h1, h2, h3⟩
            simp only [Except.ok.injEq, Prod.mk.injEq] at e
            obtain ⟨rfl, rfl⟩ := e
            exact ⟨h3, root, h1, h2⟩
          · rintro ⟨h3, root, h1, h2⟩
            exact ⟨g, sel, root, rfl, h1, h2, h3⟩
        rw [hright]
        cases sel with
        | index output profile =>
          simp only [Option.map_eq_some_iff] at hx
          obtain ⟨r, hr, rfl⟩ := hx
          simp only [st]
          rw [command_crash hd hv hr]
          simp
        | packages =>
          simp only [Option.map_eq_some_iff] at hx
          obtain ⟨l, hl, rfl⟩ := hx
          simp only [st]
          rw [(listing_crash (ord' := ord') ho hd).1 l hl]
          simp
        | missing =>
          simp only [Option.map_eq_some_iff] at hx
          obtain ⟨l, hl, rfl⟩ := hx
          simp only [st]
          rw [(listing_crash (ord' := ord') ho hd).2 l hl]
          simp

theorem searchLoop_mono {stat : Str → Stat} {wd root : Str} : ∀ {n m : Nat} {path r : Str}, searchLoop stat wd root n path = some r → n ≤ m →
    searchLoop stat wd root m path = some r
  | 0, _, _, _, h, _ => by simp [searchLoop] at h
  | n + 1, 0, _, _, _, h => by omega
  | n + 1, m + 1, path, r, h, hle => by
    unfold searchLoop at h ⊢
    split
    · rename_i hp; rw [if_pos hp] at h; exact h
    · rename_i hp
      rw [if_neg hp] at h
      cases hs : stat (goModIn path) with
      | found => rw [hs] at h; exact h
      | error => rw [hs] at h; exact h
      | missing =>
        rw [hs] at h
        simp only at h ⊢
        split
        · rename_i hd; rw [if_pos hd] at h; exact h
        · rename_i hd; rw [if_neg hd] at h; exact searchLoop_mono h (by omega)

theorem searchLoop_ends (stat : Str → Stat) (wd root : Str) : ∀ (l : List Str), (∀ x ∈ l, Name x) → ∃ n r, searchLoop stat wd root n (pathOf l) = some r := by
  intro l
  induction l using List.reverseRecOn with
  | nil =>
    intro _
    refine ⟨1, ?_⟩
    unfold searchLoop
    split
    · exact ⟨_, rfl⟩
    · cases stat (goModIn (pathOf [])) with
      | found => exact ⟨_, rfl⟩
      | error => exact ⟨_, rfl⟩
      | missing => simp only [dir_root, if_true]; exact ⟨_, rfl⟩
  | append_singleton l x ih =>
    intro h
    obtain ⟨n, r, hr⟩ := ih fun y hy => h y (by simp [hy])
    refine ⟨n + 1, ?_⟩
    unfold searchLoop
    split
    · exact ⟨_, rfl⟩
    · cases stat (goModIn (pathOf (l ++ [x]))) with
      | found => exact ⟨_, rfl⟩
      | error => exact ⟨_, rfl⟩
      | missing =>
        simp only
        split
        · exact ⟨_, rfl⟩
        · rw [dir_pathOf h]; exact ⟨r, hr⟩

/-- The search for the module root ends: from every directory, and if the working directory is not known. -/
theorem defaultModuleRoot_ends (Y : System) (hwd : (∃ dir, (∀ x ∈ dir, Name x) ∧ Y.getwd = .ok (pathOf dir)) ∨ ∃ e, Y.getwd = .error e) :
    ∃ n r, ∀ m, n ≤ m → defaultModuleRoot Y m = some r := by
  have : ∃ n r, searchForGoMod Y.stat n (workingDirectory Y.getwd) (toplevel Y.showToplevel) = some r := by
    rcases hwd with ⟨dir, hn, h⟩ | ⟨e, h⟩
    · rw [h]; exact searchLoop_ends _ _ _ dir hn
    · rw [h]
      refine ⟨2, ?_⟩
      have e1 : workingDirectory (.error e) = [] := rfl
      have e2 : dir [] = go!"." := by decide
      have e3 : dir go!"." = go!"." := by decide
      rw [e1]
      unfold searchForGoMod searchLoop
      split
      · exact ⟨_, rfl⟩
      · cases Y.stat (goModIn []) with
        | found => exact ⟨_, rfl⟩
        | error => exact ⟨_, rfl⟩
        | missing =>
          simp only [e2]
          rw [if_neg (by decide)]
          unfold searchLoop
          split
          · exact ⟨_, rfl⟩
          · cases Y.stat (goModIn go!".") with
            | found => exact ⟨_, rfl⟩
            | error => exact ⟨_, rfl⟩
            | missing => simp only [e3, if_true]; exact ⟨_, rfl⟩
  obtain ⟨n, r, h⟩ := this
  exact ⟨n, r, fun m hm => searchLoop_mono h hm⟩

/-- Loading ends. -/
theorem load_ends (answer : Query → Except Str Delivered) (env : Loader.Env) (order : Nat → Nat → List Nat) (o : IndexOpts)
    (hf : ∀ q d, answer q = .ok d → ValidOrder d.graph order ∧ FiniteGraph d.graph) :
    ∃ n loaded, ∀ m, n ≤ m → load answer env order m o o.moduleRoot = some loaded := by
  cases ha : answer (query o.moduleRoot o) with
  | error e => exact ⟨0, .error e, fun m _ => by unfold load; rw [ha]⟩
  | ok d =>
    obtain ⟨h1, h2⟩ := hf _ d ha
    obtain ⟨n, r, h⟩ := C45_loading_terminates (order := order) env (loaderOpts o) h2 h1 d.info
    refine ⟨n, r.elim (.error panicText) fun l => .ok (projectOf d o l, allOf d o l), fun m hm => ?_⟩
    unfold load
    rw [ha]
    simp only [seen_eq, h m hm]
    cases r <;> rfl

/-- **C102**: the program ends, with status 0, 1 or 2, whatever the arguments, the surroundings and the orders of iteration, and the result does not
depend on how many steps it is allowed beyond those it needs. -/
theorem C102_ends (D : Deps) (answer : Query → Except Str Delivered) (env : Loader.Env) (order : Nat → Nat → List Nat)
    (ord : MapOrders) (ord' : (GoMap Package → List Package) × (GoMap Package → List Package)) (Y : System) (W : World)
    (parsed : Except Str (Given × Selected)) (before : Target)
    (hwd : (∃ dir, (∀ x ∈ dir, x ≠ [] ∧ x ≠ go!"." ∧ x ≠ go!".." ∧ '/' ∉ x) ∧ Y.getwd = .ok (pathOf dir)) ∨ ∃ e, Y.getwd = .error e)
    (hf : ∀ q d, answer q = .ok d → ValidOrder d.graph order ∧ FiniteGraph d.graph) :
    ∃ n x, (∀ steps fuel, n ≤ steps → n ≤ fuel → Main.main D answer env order steps fuel ord ord' Y W parsed before = some x) ∧ x.ending.status ≤ 2 := by
  have st : ∀ p r, (mainEnding p r).status ≤ 2 := by
    intro p r
    cases p with
    | error e => simp [mainEnding]
    | ok u => cases r <;> simp [mainEnding]
  have stx : ∀ steps fuel x, Main.main D answer env order steps fuel ord ord' Y W parsed before = some x → x.ending.status ≤ 2 := by
    intro steps fuel x h
    unfold Main.main at h
    split at h
    · simp at h
    · simp only [Option.some.injEq] at h; subst h; exact st _ _
    · simp only [Option.some.injEq] at h; subst h; exact st _ _
    all_goals
      simp only [Option.map_eq_some_iff] at h
      obtain ⟨_, _, rfl⟩ := h
      exact st _ _
  suffices h : ∃ n, (Main.main D answer env order n n ord ord' Y W parsed before).isSome ∧ ∀ steps fuel, n ≤ steps → n ≤ fuel →
      Main.main D answer env order steps fuel ord ord' Y W parsed before = Main.main D answer env order n n ord ord' Y W parsed before by
    obtain ⟨n, h1, h2⟩ := h
    obtain ⟨x, hx⟩ := Option.isSome_iff_exists.1 h1
    exact ⟨n, x, fun steps fuel a b => (h2 steps fuel a b).trans hx, stx n n x hx⟩
  obtain ⟨n, dir, hdir⟩ := defaultModuleRoot_ends Y hwd
  cases hD : defaults Y.parseUrl Y.decode (Y.tools dir) with
  | crash =>
    refine ⟨n, ?_, fun steps fuel h1 _ => ?_⟩ <;> unfold Main.main parseArgs
    · simp only [hdir n (Nat.le_refl n), Option.map_some, hD, Option.isSome_some]
    · simp only [hdir n (Nat.le_refl n), hdir steps h1, Option.map_some, hD]
  | error e => exact absurd hD (defaults_not_error Y dir e)
  | ok Df =>
    cases parsed with
    | error e =>
      refine ⟨n, ?_, fun steps fuel h1 _ => ?_⟩ <;> unfold Main.main parseArgs
      · simp only [hdir n (Nat.le_refl n), Option.map_some, hD, Option.isSome_some]
      · simp only [hdir n (Nat.le_refl n), hdir steps h1, Option.map_some, hD]
    | ok y =>
      obtain ⟨g, sel⟩ := y
      cases hS : makeOptions (surroundings Y) (sharedFlags dir Df g) with
      | crash =>
        refine ⟨n, ?_, fun steps fuel h1 _ => ?_⟩ <;> unfold Main.main parseArgs <;> cases sel
        all_goals first
          | simp only [hdir n (Nat.le_refl n), hdir steps h1, Option.map_some, hD, hS, Program.command, Main.listing, packagesRun, missingRun]
          | simp only [hdir n (Nat.le_refl n), Option.map_some, hD, hS, Program.command, Main.listing, Option.isSome_some]
      | error e =>
        refine ⟨n, ?_, fun steps fuel h1 _ => ?_⟩ <;> unfold Main.main parseArgs <;> cases sel
        all_goals first
          | simp only [hdir n (Nat.le_refl n), hdir steps h1, Option.map_some, hD, hS, Program.command, Main.listing, packagesRun, missingRun]
          | simp only [hdir n (Nat.le_refl n), Option.map_some, hD, hS, Program.command, Main.listing, Option.isSome_some]
      | ok z =>
        obtain ⟨o, level⟩ := z
        obtain ⟨k, loaded, hload⟩ := load_ends answer env order o hf
        have hfor : ∀ fuel, k ≤ fuel → loadFor answer env order fuel o = loaded := fun fuel h => by unfold loadFor; rw [hload fuel h]; rfl
        have hn : n ≤ max n k := Nat.le_max_left _ _
        have hk : k ≤ max n k := Nat.le_max_right _ _
        refine ⟨max n k, ?_, fun steps fuel h1 h2 => ?_⟩ <;> unfold Main.main parseArgs <;> cases sel
        all_goals first
          | simp only [hdir _ hn, hdir steps (Nat.le_trans hn h1), hload _ hk, hload fuel (Nat.le_trans hk h2), hfor _ hk, hfor fuel (Nat.le_trans hk h2),
              Option.map_some, hD, hS, Program.command, Main.listing, packagesRun, packagesOf, missingRun, missingOf]
          | simp only [hdir _ hn, hload _ hk, hfor _ hk, Option.map_some, hD, hS, Program.command, Main.listing, packagesRun, packagesOf, missingRun, missingOf,
              Option.isSome_some]

/-- The situation in which the flag `--module-root` misleads: the versions do not depend on it. -/
theorem C101_versions_from_elsewhere (Y : System) (steps : Nat) (g : Given) (root : Str) {α : Type} (c : α) (sh sh' : SharedFlags) (c' c'' : α)
    (h : parseArgs Y steps (.ok (g, c)) = some (.ok (sh, c'))) (h' : parseArgs Y steps (.ok ({ g with moduleRoot := some root }, c)) = some (.ok (sh', c''))) :
    sh' = { sh with moduleRoot := root } := by
  unfold parseArgs at h h'
  simp only [Option.map_eq_some_iff] at h h'
  obtain ⟨d, hd, h⟩ := h
  obtain ⟨d', hd', h'⟩ := h'
  rw [hd] at hd'
  simp only [Option.some.injEq] at hd'
  subst hd'
  split at h
  · simp at h
  · simp at h
  · rename_i Df hD
    rw [hD] at h'
    simp only [Res.ok.injEq, Prod.mk.injEq] at h h'
    rw [← h.1, ← h'.1]
    rfl

end Verif
