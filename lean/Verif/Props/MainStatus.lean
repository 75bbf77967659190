import Verif.Props.MainCrash
import Verif.Props.BrokenModule
import Verif.Props.Text
/-! # C103: when the program succeeds, and what the listing commands print -/
namespace Verif
open Spec Index Program Loader Loader.Spec Cmd Git Commands Main Filepath

theorem moduleName_ok {Y : System} {root remote : Str} {given : Option Str} {m : Str} {std : Bool} :
    moduleName Y.modules root remote (given.getD []) = .ok (m, std) ↔ ModuleNamed Y root remote given m std := by
  have hstd : ∀ (n : Str) (s : Bool), (if n = go!"std" then true else s) = (decide (n = go!"std") || s) := by
    intro n s; by_cases h : n = go!"std" <;> simp [h]
  unfold moduleName
  by_cases h : given = none ∨ given = some []
  · have h0 : given.getD [] = [] := by rcases h with h | h <;> rw [h] <;> rfl
    simp only [h0, ne_eq, not_true_eq_false, if_false]
    cases h1 : Y.modules.readGoMod (goModIn root) with
    | none =>
      cases h2 : resolveModuleName Y.modules remote remote with
      | ok x =>
        obtain ⟨n, s⟩ := x
        simp only [Res.ok.injEq, Prod.mk.injEq, hstd]
        constructor
        · rintro ⟨rfl, rfl⟩; exact .remote h h1 h2
        · intro hm
          cases hm with
          | given e hne => rcases h with h | h <;> rw [h] at e <;> simp at e; exact absurd e hne
          | goMod _ e _ => rw [h1] at e; simp at e
          | remote _ _ e => rw [h2] at e; simp only [Except.ok.injEq, Prod.mk.injEq] at e; rw [e.1, e.2]; exact ⟨rfl, rfl⟩
          | unknown _ _ e => rw [h2] at e; simp at e
      | error e =>
        simp only [Res.ok.injEq, Prod.mk.injEq, hstd]
        constructor
        · rintro ⟨rfl, rfl⟩; exact .unknown h h1 h2
        · intro hm
          cases hm with
          | given e hne => rcases h with h | h <;> rw [h] at e <;> simp at e; exact absurd e hne
          | goMod _ e _ => rw [h1] at e; simp at e
          | remote _ _ e => rw [h2] at e; simp at e
          | unknown _ _ e => exact ⟨rfl, rfl⟩
    | some data =>
      cases h2 : Y.modules.parseGoMod data with
      | error e =>
        simp only [h2, reduceCtorEq, false_iff]
        intro hm
        cases hm with
        | given e hne => rcases h with h | h <;> rw [h] at e <;> simp at e; exact absurd e hne
        | goMod _ e e' => rw [h1] at e; simp only [Option.some.injEq] at e; subst e; rw [h2] at e'; simp at e'
        | remote _ e _ => rw [h1] at e; simp at e
        | unknown _ e _ => rw [h1] at e; simp at e
      | ok r =>
        cases r with
        | none =>
          simp only [h2, reduceCtorEq, false_iff]
          intro hm
          cases hm with
          | given e hne => rcases h with h | h <;> rw [h] at e <;> simp at e; exact absurd e hne
          | goMod _ e e' => rw [h1] at e; simp only [Option.some.injEq] at e; subst e; rw [h2] at e'; simp at e'
          | remote _ e _ => rw [h1] at e; simp at e
          | unknown _ e _ => rw [h1] at e; simp at e
        | some n =>
          simp only [h2, Res.ok.injEq, Prod.mk.injEq, hstd, Bool.or_false]
          constructor
          · rintro ⟨rfl, rfl⟩; exact .goMod h h1 h2
          · intro hm
            cases hm with
            | given e hne => rcases h with h | h <;> rw [h] at e <;> simp at e; exact absurd e hne
            | goMod _ e e' =>
              rw [h1] at e; simp only [Option.some.injEq] at e; subst e; rw [h2] at e'
              simp only [Except.ok.injEq, Option.some.injEq] at e'
              rw [e']; exact ⟨rfl, rfl⟩
            | remote _ e _ => rw [h1] at e; simp at e
            | unknown _ e _ => rw [h1] at e; simp at e
  · cases given with
    | none => simp at h
    | some n =>
      have hn : n ≠ [] := by simpa using h
      simp only [Option.getD_some, ne_eq, hn, not_false_eq_true, if_true, Res.ok.injEq, Prod.mk.injEq, hstd, Bool.or_false]
      constructor
      · rintro ⟨rfl, rfl⟩; exact .given rfl hn
      · intro hm
        cases hm with
        | given e hne => simp only [Option.some.injEq] at e; rw [e]; exact ⟨rfl, rfl⟩
        | goMod e _ _ => exact absurd e h
        | remote e _ _ => exact absurd e h
        | unknown e _ _ => exact absurd e h

theorem level_some {q : Bool} {v : Int} : (∃ l, getLogLevel q v = some l) ↔ q = true ∨ 0 ≤ v := by
  have := level_none (q := q) (v := v)
  cases h : getLogLevel q v with
  | none =>
    obtain ⟨h1, h2⟩ := this.1 h
    simp [h1]; omega
  | some l =>
    simp only [h, reduceCtorEq, false_iff, not_and, not_lt] at this
    simp only [Option.some.injEq, exists_eq', true_iff]
    cases q with
    | true => exact .inl rfl
    | false => exact .inr (by have := this rfl; omega)

/-- The options that the program loads packages with. -/
theorem starts_iff {Y : System} {steps : Nat} {dir : Str} (hdir : defaultModuleRoot Y steps = some dir) {g : Given} {α : Type} {c : α} {o : IndexOpts} :
    (∃ sh level, parseArgs Y steps (.ok (g, c)) = some (.ok (sh, c)) ∧ makeOptions (surroundings Y) sh = .ok (o, level)) ↔ Starts Y dir g o := by
  unfold parseArgs
  rw [hdir]
  simp only [Option.map_some, Option.some.injEq]
  have hbad : defaults Y.parseUrl Y.decode (Y.tools dir) = .crash ↔ BadAnswers Y dir := (C77_defaults_crash_iff _ _ _).2
  cases hD : defaults Y.parseUrl Y.decode (Y.tools dir) with
  | error e => exact absurd hD (defaults_not_error Y dir e)
  | crash =>
    simp only [reduceCtorEq, false_and, exists_false, false_iff]
    exact fun h => h.answers (hbad.1 hD)
  | ok D =>
    have hno : ¬ BadAnswers Y dir := fun h => by have := hbad.2 h; rw [hD] at this; simp at this
    simp only [Res.ok.injEq, Prod.mk.injEq, and_true]
    have hd : defaultModuleVersion (Y.tools dir).tags (Y.tools dir).head = .ok D.version ∧ defaultGoVersion Y.decode (Y.tools dir).goList = .ok D.goVersion ∧
        D.remote = defaultRepositoryRemote Y.parseUrl (Y.tools dir).getUrl := by
      unfold defaults at hD
      split at hD
      · simp at hD
      · simp at hD
      · rename_i v hv
        split at hD
        · simp at hD
        · simp at hD
        · rename_i gv hgv
          simp only [Res.ok.injEq] at hD
          subst hD
          exact ⟨hv, hgv, rfl⟩
    obtain ⟨hd1, hd2, hd3⟩ := hd
    constructor
    · rintro ⟨sh, level, rfl, h⟩
      unfold makeOptions at h
      split at h
      · simp at h
      · rename_i root hroot
        split at h
        · simp at h
        · rename_i l hl
          split at h
          · simp at h
          · simp at h
          · rename_i m std hm
            simp only [Res.ok.injEq, Prod.mk.injEq] at h
            obtain ⟨rfl, rfl⟩ := h
            refine ⟨hno, hroot, level_some.1 ⟨_, hl⟩, ?_, ?_, ?_, rfl, rfl, rfl, rfl, rfl⟩
            · rw [← hd3]; exact moduleName_ok.1 hm
            · show GivenOr g.moduleVersion _ (g.moduleVersion.getD D.version)
              unfold GivenOr
              cases g.moduleVersion with
              | some v => rfl
              | none => exact hd1
            · show GivenOr g.goVersion _ (g.goVersion.getD D.goVersion)
              unfold GivenOr
              cases g.goVersion with
              | some v => rfl
              | none => exact hd2
    · intro h
      obtain ⟨l, hl⟩ := level_some.2 h.verbosity
      refine ⟨_, l, rfl, ?_⟩
      unfold makeOptions
      have h1 : (surroundings Y).abs (sharedFlags dir D g).moduleRoot = .ok o.moduleRoot := h.root
      have h2 : getLogLevel (sharedFlags dir D g).quiet (sharedFlags dir D g).verbose = some l := hl
      have h3 : (surroundings Y).moduleName o.moduleRoot (sharedFlags dir D g).repositoryRemote (sharedFlags dir D g).modulePath =
          .ok (o.modulePath, o.isIndexingStdlib) := by
        have := h.named
        rw [← hd3] at this
        exact moduleName_ok.2 this
      rw [h1, h2]
      simp only [h3]
      have h4 : g.moduleVersion.getD D.version = o.moduleVersion := by
        have := h.version
        unfold GivenOr at this
        cases hg : g.moduleVersion with
        | some v => rw [hg] at this; exact this.symm
        | none => rw [hg] at this; simp only at this; rw [hd1] at this; simpa using this
      have h5 : g.goVersion.getD D.goVersion = o.goStdlibVersion := by
        have := h.goVersion
        unfold GivenOr at this
        cases hg : g.goVersion with
        | some v => rw [hg] at this; exact this.symm
        | none => rw [hg] at this; simp only at this; rw [hd2] at this; simpa using this
      have e1 := h.driver
      have e2 := h.skipImplementations
      have e3 := h.skipTests
      have e4 := h.patterns
      have e5 := h.arguments
      cases o
      simp only at h4 h5 e1 e2 e3 e4 e5
      simp only [sharedFlags, h4, h5, surroundings, e1, e2, e3, e4, e5]

/-- What is asked of the go command. -/
theorem load_succeeds {D : Deps} {answer : Query → Except Str Delivered} {env : Loader.Env} {order : Nat → Nat → List Nat} {fuel : Nat} {o : IndexOpts}
    (hd : GoodDeliveries D answer order) (hm : ∀ q d, answer q = .ok d → SameModules d) {loaded : Except Str (GoMap Package × GoMap Package)}
    (hl : load answer env order fuel o o.moduleRoot = some loaded) :
    (∃ p, loaded = .ok p) ↔
      ∃ d, answer ⟨o.moduleRoot, !o.skipTests, if o.packagePatterns = [] then [go!"./..."] else o.packagePatterns⟩ = .ok d ∧ ¬ BrokenProgram d env o := by
  unfold load at hl
  rw [query_eq] at hl
  cases ha : answer ⟨o.moduleRoot, !o.skipTests, if o.packagePatterns = [] then [go!"./..."] else o.packagePatterns⟩ with
  | error e =>
    rw [ha] at hl
    simp only [Option.some.injEq] at hl
    subst hl
    simp
  | ok d =>
    rw [ha] at hl
    obtain ⟨h1, h2, h3, _, objs, h5⟩ := hd _ d ha
    simp only [Except.ok.injEq, exists_eq_left']
    simp only [seen_eq] at hl
    split at hl
    · simp at hl
    · rename_i hnone
      simp only [Option.some.injEq] at hl
      subst hl
      simp only [reduceCtorEq, exists_false, false_iff, not_not]
      exact broken_of_panic (answer := answer) ⟨ha, h1, h2, h3⟩ hnone
    · rename_i l hsome
      simp only [Option.some.injEq] at hl
      subst hl
      simp only [Except.ok.injEq, exists_eq', true_iff]
      exact not_broken_of_load ⟨h1, h2, h3, hsome⟩ (hm _ d ha)

theorem status_zero (r : Res Unit) : (mainEnding (.ok ()) r).status = 0 ↔ r = .ok () := by
  cases r <;> simp [mainEnding]

/-- What a listing command comes to, if it ends. -/
theorem listing_main {D : Deps} {answer : Query → Except Str Delivered} {env : Loader.Env} {order : Nat → Nat → List Nat} {steps fuel : Nat}
    {ord : MapOrders} {ord' : (GoMap Package → List Package) × (GoMap Package → List Package)} {Y : System} {W : World}
    {g : Given} {command : Selected} {before : Target} (hcmd : command = .packages ∨ command = .missing)
    {x : Main.Outcome} (hx : Main.main D answer env order steps fuel ord ord' Y W (.ok (g, command)) before = some x) :
    ∃ dir, defaultModuleRoot Y steps = some dir ∧ x.target = before ∧ x.piped = [] ∧
      ((x.ending.status ≠ 0 ∧ ∀ o, ¬ Starts Y dir g o) ∨
       ∃ o loaded, Starts Y dir g o ∧ load answer env order fuel o o.moduleRoot = some loaded ∧
        ∃ l, x.ending = mainEnding (.ok ()) l.exit ∧ x.printed = l.printed ∧
          (command = .packages → l = packagesRun (.ok o) (packagesOf fun _ => loaded)) ∧
          (command = .missing → l = missingRun (.ok o) (missingOf ord'.1 ord'.2 fun _ => loaded))) := by
  unfold Main.main at hx
  cases hp : parseArgs Y steps (.ok (g, command)) with
  | none => rw [hp] at hx; simp at hx
  | some res =>
    rw [hp] at hx
    have hdir : ∃ dir, defaultModuleRoot Y steps = some dir := by
      unfold parseArgs at hp
      simp only [Option.map_eq_some_iff] at hp
      obtain ⟨dir, h, _⟩ := hp
      exact ⟨dir, h⟩
    obtain ⟨dir, hdir⟩ := hdir
    refine ⟨dir, hdir, ?_⟩
    have hst := fun o => starts_iff hdir (g := g) (c := command) (o := o)
    cases res with
    | crash =>
      simp only [Option.some.injEq] at hx
      subst hx
      refine ⟨rfl, rfl, .inl ⟨by simp [mainEnding], fun o h => ?_⟩⟩
      obtain ⟨sh, level, h1, _⟩ := (hst o).2 h
      rw [hp] at h1; simp at h1
    | error e =>
      simp only [Option.some.injEq] at hx
      subst hx
      refine ⟨rfl, rfl, .inl ⟨by simp [mainEnding], fun o h => ?_⟩⟩
      obtain ⟨sh, level, h1, _⟩ := (hst o).2 h
      rw [hp] at h1; simp at h1
    | ok y =>
      obtain ⟨sh, c⟩ := y
      have hc : c = command := by
        unfold parseArgs at hp
        rw [hdir] at hp
        simp only [Option.map_some, Option.some.injEq] at hp
        split at hp <;> simp at hp
        exact hp.2.symm
      subst hc
      have hne : (∀ o level, makeOptions (surroundings Y) sh ≠ .ok (o, level)) → ∀ o, ¬ Starts Y dir g o := by
        intro h o hs
        obtain ⟨sh', level, h1, h2⟩ := (hst o).2 hs
        rw [hp] at h1
        simp only [Option.some.injEq, Res.ok.injEq, Prod.mk.injEq, and_true] at h1
        subst h1
        exact h o level h2
      rcases hcmd with rfl | rfl
      · simp only [Option.map_eq_some_iff] at hx
        obtain ⟨l, hl, rfl⟩ := hx
        refine ⟨rfl, rfl, ?_⟩
        unfold Main.listing at hl
        cases hS : makeOptions (surroundings Y) sh with
        | crash =>
          rw [hS] at hl
          simp only [Option.some.injEq] at hl
          subst hl
          exact .inl ⟨by simp [packagesRun, mainEnding], hne (by rw [hS]; simp)⟩
        | error e =>
          rw [hS] at hl
          simp only [Option.some.injEq] at hl
          subst hl
          exact .inl ⟨by simp [packagesRun, mainEnding], hne (by rw [hS]; simp)⟩
        | ok z =>
          obtain ⟨o, level⟩ := z
          rw [hS] at hl
          simp only [Option.map_eq_some_iff] at hl
          obtain ⟨loaded, hload, rfl⟩ := hl
          refine .inr ⟨o, loaded, (hst o).1 ⟨sh, level, hp, hS⟩, hload, _, rfl, rfl, fun _ => ?_, by simp⟩
          simp only [packagesRun, packagesOf, loadFor, hload, Option.getD_some]
      · simp only [Option.map_eq_some_iff] at hx
        obtain ⟨l, hl, rfl⟩ := hx
        refine ⟨rfl, rfl, ?_⟩
        unfold Main.listing at hl
        cases hS : makeOptions (surroundings Y) sh with
        | crash =>
          rw [hS] at hl
          simp only [Option.some.injEq] at hl
          subst hl
          exact .inl ⟨by simp [missingRun, mainEnding], hne (by rw [hS]; simp)⟩
        | error e =>
          rw [hS] at hl
          simp only [Option.some.injEq] at hl
          subst hl
          exact .inl ⟨by simp [missingRun, mainEnding], hne (by rw [hS]; simp)⟩
        | ok z =>
          obtain ⟨o, level⟩ := z
          rw [hS] at hl
          simp only [Option.map_eq_some_iff] at hl
          obtain ⟨loaded, hload, rfl⟩ := hl
          refine .inr ⟨o, loaded, (hst o).1 ⟨sh, level, hp, hS⟩, hload, _, rfl, rfl, by simp, fun _ => ?_⟩
          simp only [missingRun, missingOf, loadFor, hload, Option.getD_some]

theorem keys_project {d : Delivered} {env : Loader.Env} {o : IndexOpts} {order : Nat → Nat → List Nat} {fuel : Nat} {l : Loaded} (h : LoadOk d env o order fuel l)
    (k : Str) : k ∈ (projectOf d o l).keys ↔ ∃ r ∈ d.roots, (d.info r).path = k := by
  unfold GoMap.keys
  rw [List.mem_map]
  constructor
  · rintro ⟨⟨k', p⟩, hp, rfl⟩
    obtain ⟨x, hx, _⟩ := (mem_projectOf h).1 hp
    exact ((h.project_get _ x).1 hx).1
  · rintro ⟨r, hr, rfl⟩
    obtain ⟨x, hx⟩ := (h.known _).2 (.inr ⟨r, .root hr, rfl⟩)
    exact ⟨(_, _), (mem_projectOf h).2 ⟨x, (h.project_get _ x).2 ⟨⟨r, hr, rfl⟩, hx⟩, rfl⟩, rfl⟩

theorem keys_all {d : Delivered} {env : Loader.Env} {o : IndexOpts} {order : Nat → Nat → List Nat} {fuel : Nat} {l : Loaded} (h : LoadOk d env o order fuel l)
    (k : Str) : k ∈ (allOf d o l).keys ↔ k = go!"builtin" ∨ ∃ i, Reachable d.graph i ∧ (d.info i).path = k := by
  rw [allOf_keys h, GoMap.mem_keys]
  exact h.known k

/-- **C103**, the listing commands: they succeed (status 0) exactly if the program can start with its flags, the go command delivers the packages that
are asked for, and no package needs a broken go.mod file. -/
theorem C103_listing_succeeds_iff (D : Deps) (answer : Query → Except Str Delivered) (env : Loader.Env) (order : Nat → Nat → List Nat) (steps fuel : Nat)
    (ord : MapOrders) (ord' : (GoMap Package → List Package) × (GoMap Package → List Package)) (Y : System) (W : World)
    (g : Given) (command : Selected) (before : Target) (hcmd : command = .packages ∨ command = .missing) (hd : GoodDeliveries D answer order)
    (hm : ∀ q d, answer q = .ok d → SameModules d) (hv : ValidMapOrders ord) (ho : ∀ m, (ord'.1 m).Perm (m.map (·.2)))
    (x : Main.Outcome) (hx : Main.main D answer env order steps fuel ord ord' Y W (.ok (g, command)) before = some x) :
    ∃ dir, defaultModuleRoot Y steps = some dir ∧
      (x.ending.status = 0 ↔ ∃ o d, Starts Y dir g o ∧
        answer ⟨o.moduleRoot, !g.skipTests, if g.packagePatterns = [] then [go!"./..."] else g.packagePatterns⟩ = .ok d ∧ ¬ BrokenProgram d env o) := by
  obtain ⟨dir, hdir, _, _, h⟩ := listing_main hcmd hx
  refine ⟨dir, hdir, ?_⟩
  have hq : ∀ o, Starts Y dir g o → (⟨o.moduleRoot, !o.skipTests, if o.packagePatterns = [] then [go!"./..."] else o.packagePatterns⟩ : Query) =
      ⟨o.moduleRoot, !g.skipTests, if g.packagePatterns = [] then [go!"./..."] else g.packagePatterns⟩ := by
    intro o hs
    rw [hs.skipTests, hs.patterns]
    by_cases he : g.packagePatterns = [] <;> simp [he]
  have hone : ∀ o o', Starts Y dir g o → Starts Y dir g o' → o = o' := by
    intro o o' h1 h2
    obtain ⟨sh, _, h3, h4⟩ := (starts_iff hdir (c := ())).2 h1
    obtain ⟨sh', _, h5, h6⟩ := (starts_iff hdir (c := ())).2 h2
    rw [h3] at h5
    simp only [Option.some.injEq, Res.ok.injEq, Prod.mk.injEq, and_true] at h5
    subst h5
    rw [h4] at h6
    simp only [Res.ok.injEq, Prod.mk.injEq] at h6
    exact h6.1
  rcases h with ⟨h1, h2⟩ | ⟨o, loaded, hs, hload, l, he, _, hpk, hms⟩
  · exact ⟨fun h => absurd h h1, fun ⟨o, _, h, _⟩ => absurd h (h2 o)⟩
  · have hls := load_succeeds hd hm hload
    rw [hq o hs] at hls
    have hright : (∃ o' d, Starts Y dir g o' ∧
        answer ⟨o'.moduleRoot, !g.skipTests, if g.packagePatterns = [] then [go!"./..."] else g.packagePatterns⟩ = .ok d ∧ ¬ BrokenProgram d env o') ↔
        ∃ p, loaded = .ok p := by
      rw [hls]
      constructor
      · rintro ⟨o', d, h1, h2, h3⟩
        have := hone o' o h1 hs
        subst this
        exact ⟨d, h2, h3⟩
      · rintro ⟨d, h2, h3⟩
        exact ⟨o, d, hs, h2, h3⟩
    rw [hright, he, status_zero]
    rcases hcmd with rfl | rfl
    · rw [hpk rfl]
      cases loaded with
      | error e => simp [packagesRun, packagesOf, getPackages]
      | ok p => simp [packagesRun, packagesOf, getPackages]
    · have hl := hms rfl
      subst hl
      cases loaded with
      | error e => simp [missingRun, missingOf]
      | ok p =>
        simp only [Except.ok.injEq, exists_eq', iff_true]
        have hne : x.ending.status ≠ 2 := by
          obtain ⟨dir', hdir', hiff⟩ := C102_panics_iff D answer env order steps fuel ord ord' Y W _ before hd hv ho x hx
          rw [hdir] at hdir'
          simp only [Option.some.injEq] at hdir'
          subst hdir'
          rw [Ne, hiff]
          rintro (h | ⟨g', c, root, h1, h2, h3, _⟩)
          · exact hs.answers h
          · simp only [Except.ok.injEq, Prod.mk.injEq] at h1
            obtain ⟨rfl, rfl⟩ := h1
            rw [hs.root] at h2
            simp only [Except.ok.injEq] at h2
            subst h2
            rcases h3 with ⟨h3, h4⟩ | ⟨h3, data, h4, h5⟩
            · rcases hs.verbosity with h | h
              · rw [h] at h3; simp at h3
              · omega
            · have hn := moduleName_crash (E := Y.modules) (dir := o.moduleRoot)
                (repo := g.repositoryRemote.getD (defaultRepositoryRemote Y.parseUrl (Y.tools dir).getUrl)) (inName := g.modulePath.getD [])
              rw [moduleName_ok.2 hs.named] at hn
              simp only [reduceCtorEq, false_iff] at hn
              exact hn ⟨by rcases h3 with h | h <;> rw [h] <;> rfl, data, h4, h5⟩
        rw [he] at hne
        simp only [missingRun, missingOf] at hne ⊢
        cases hlm : listMissing o.moduleRoot (ord'.1 p.1) (ord'.2 p.1) with
        | none => rw [hlm] at hne; simp [mainEnding] at hne
        | some l => simp only; split <;> rfl

/-- **C103**, `packages`: a run that succeeds prints, line by line, a heading, the import paths of the packages that match the patterns, a heading, and the import
paths of all packages they need, with `builtin`; both lists strictly sorted; nothing is written. -/
theorem C103_packages_printed (D : Deps) (answer : Query → Except Str Delivered) (env : Loader.Env) (order : Nat → Nat → List Nat) (steps fuel : Nat)
    (ord : MapOrders) (ord' : (GoMap Package → List Package) × (GoMap Package → List Package)) (Y : System) (W : World)
    (g : Given) (before : Target) (hd : GoodDeliveries D answer order)
    (hline : ∀ q d i, answer q = .ok d → Reachable d.graph i → '\n' ∉ (d.info i).path)
    (x : Main.Outcome) (hx : Main.main D answer env order steps fuel ord ord' Y W (.ok (g, .packages)) before = some x) (hok : x.ending.status = 0) :
    x.target = before ∧ x.piped = [] ∧ ∃ root d current deps,
      answer ⟨root, !g.skipTests, if g.packagePatterns = [] then [go!"./..."] else g.packagePatterns⟩ = .ok d ∧
      Spec.linesOf x.printed = [go!"Current packages"] ++ current ++ [go!"Dependency packages"] ++ deps ∧
      current.Pairwise (fun a b => Str.lt a b = true) ∧ deps.Pairwise (fun a b => Str.lt a b = true) ∧
      (∀ k, k ∈ current ↔ ∃ r ∈ d.roots, (d.info r).path = k) ∧
      (∀ k, k ∈ deps ↔ k = go!"builtin" ∨ ∃ i, Reachable d.graph i ∧ (d.info i).path = k) := by
  obtain ⟨dir, hdir, h1, h2, h⟩ := listing_main (.inl rfl) hx
  refine ⟨h1, h2, ?_⟩
  rcases h with ⟨h, _⟩ | ⟨o, loaded, hs, hload, l, he, hpr, hpk, -⟩
  · exact absurd hok h
  · have hl := hpk rfl
    subst hl
    rw [he, status_zero] at hok
    cases loaded with
    | error e => simp [packagesRun, packagesOf, getPackages] at hok
    | ok p =>
      unfold load at hload
      rw [query_eq] at hload
      have e4 : (⟨o.moduleRoot, !o.skipTests, if o.packagePatterns = [] then [go!"./..."] else o.packagePatterns⟩ : Query) =
          ⟨o.moduleRoot, !g.skipTests, if g.packagePatterns = [] then [go!"./..."] else g.packagePatterns⟩ := by
        rw [hs.skipTests, hs.patterns]
        by_cases he : g.packagePatterns = [] <;> simp [he]
      rw [e4] at hload
      cases ha : answer ⟨o.moduleRoot, !g.skipTests, if g.packagePatterns = [] then [go!"./..."] else g.packagePatterns⟩ with
      | error e => rw [ha] at hload; simp at hload
      | ok d =>
        rw [ha] at hload
        obtain ⟨g1, g2, g3, _⟩ := hd _ d ha
        simp only [seen_eq] at hload
        split at hload
        · simp at hload
        · simp at hload
        · rename_i ld hld
          simp only [Option.some.injEq, Except.ok.injEq] at hload
          subst hload
          have hl : LoadOk d env o order fuel ld := ⟨g1, g2, g3, hld⟩
          have hk1 : ∀ k, k ∈ sortStrs (projectOf d o ld).keys ↔ ∃ r ∈ d.roots, (d.info r).path = k :=
            fun k => (sortStrs_perm _).mem_iff.trans (keys_project hl k)
          have hk2 : ∀ k, k ∈ sortStrs (allOf d o ld).keys ↔ k = go!"builtin" ∨ ∃ i, Reachable d.graph i ∧ (d.info i).path = k :=
            fun k => (sortStrs_perm _).mem_iff.trans (keys_all hl k)
          refine ⟨o.moduleRoot, d, sortStrs (projectOf d o ld).keys, sortStrs (allOf d o ld).keys, ha, ?_, sortStrs_strict (projectOf_nodup hl),
            sortStrs_strict (by rw [allOf_keys hl]; exact hl.inv.nodup), hk1, hk2⟩
          rw [hpr]
          simp only [packagesRun, packagesOf, getPackages]
          refine linesOf_listing (fun k hk => ?_) fun k hk => ?_
          · obtain ⟨r, hr, rfl⟩ := (hk1 k).1 hk
            exact hline _ d r ha (.root hr)
          · rcases (hk2 k).1 hk with rfl | ⟨i, hi, rfl⟩
            · decide
            · exact hline _ d i ha hi

/-- **C103**, `missing`: a run that succeeds prints one line, which says that no documents are missing (C55). -/
theorem C103_missing_printed (D : Deps) (answer : Query → Except Str Delivered) (env : Loader.Env) (order : Nat → Nat → List Nat) (steps fuel : Nat)
    (ord : MapOrders) (ord' : (GoMap Package → List Package) × (GoMap Package → List Package)) (Y : System) (W : World)
    (g : Given) (before : Target) (ho : ∀ m, (ord'.1 m).Perm (m.map (·.2))) (ho' : ∀ m, (ord'.2 m).Perm (m.map (·.2)))
    (x : Main.Outcome) (hx : Main.main D answer env order steps fuel ord ord' Y W (.ok (g, .missing)) before = some x) (hok : x.ending.status = 0) :
    x.target = before ∧ x.piped = [] ∧ x.printed = go!"No missing documents\n" := by
  obtain ⟨dir, hdir, h1, h2, h⟩ := listing_main (.inr rfl) hx
  refine ⟨h1, h2, ?_⟩
  rcases h with ⟨h, _⟩ | ⟨o, loaded, hs, hload, l, he, hpr, -, hms⟩
  · exact absurd hok h
  · have hl := hms rfl
    subst hl
    rw [he, status_zero] at hok
    rw [hpr]
    cases loaded with
    | error e => simp [missingRun, missingOf] at hok
    | ok p =>
      rcases C76_missing_text ord'.1 ord'.2 ho ho' (fun _ => .ok p) o p.1 p.2 rfl with h | h
      · rw [h]
      · rw [h] at hok; simp at hok

theorem absolute_abs {getwd : Except Str Str} (hwd : ∀ w, getwd = .ok w → ∃ dir : List Str, (∀ x ∈ dir, Name x) ∧ w = pathOf dir) {p q : Str}
    (h : Main.abs getwd p = .ok q) : Absolute q := by
  have key : ∀ dir : List Str, (∀ x ∈ dir, Name x) → Main.abs (.ok (pathOf dir)) p = .ok q → Absolute q := by
    intro dir hn h
    rw [(abs_denoted hn p).1] at h
    simp only [Except.ok.injEq] at h
    subst h
    unfold Absolute pathOf
    rfl
  cases getwd with
  | ok w =>
    obtain ⟨dir, hn, rfl⟩ := hwd w rfl
    exact key dir hn h
  | error e =>
    refine key [] (by simp) ?_
    unfold Main.abs at h ⊢
    split
    · rename_i ha; rw [if_pos ha] at h; exact h
    · rename_i ha; rw [if_neg ha] at h; simp at h

/-- What the command `index` comes to, if it ends. -/
theorem index_main {D : Deps} {answer : Query → Except Str Delivered} {env : Loader.Env} {order : Nat → Nat → List Nat} {steps fuel : Nat}
    {ord : MapOrders} {ord' : (GoMap Package → List Package) × (GoMap Package → List Package)} {Y : System} {W : World}
    {g : Given} {output : Option Str} {profile : Int} {before : Target}
    {x : Main.Outcome} (hx : Main.main D answer env order steps fuel ord ord' Y W (.ok (g, .index output profile)) before = some x) :
    ∃ dir, defaultModuleRoot Y steps = some dir ∧
      ((x.ending.status ≠ 0 ∧ ∀ o, ¬ Starts Y dir g o) ∨
       ∃ o loaded, Starts Y dir g o ∧ load answer env order fuel o o.moduleRoot = some loaded ∧
        x.ending = mainEnding (.ok ()) (Cmd.run W profile (output.getD go!"index.scip") (.ok o) (fun o w => index D (indexOpts o) ord w loaded) before).exit) := by
  unfold Main.main at hx
  cases hp : parseArgs Y steps (.ok (g, Selected.index output profile)) with
  | none => rw [hp] at hx; simp at hx
  | some res =>
    rw [hp] at hx
    have hdir : ∃ dir, defaultModuleRoot Y steps = some dir := by
      unfold parseArgs at hp
      simp only [Option.map_eq_some_iff] at hp
      obtain ⟨dir, h, _⟩ := hp
      exact ⟨dir, h⟩
    obtain ⟨dir, hdir⟩ := hdir
    refine ⟨dir, hdir, ?_⟩
    have hst := fun o => starts_iff hdir (g := g) (c := Selected.index output profile) (o := o)
    cases res with
    | crash =>
      simp only [Option.some.injEq] at hx
      subst hx
      refine .inl ⟨by simp [mainEnding], fun o h => ?_⟩
      obtain ⟨sh, level, h1, _⟩ := (hst o).2 h
      rw [hp] at h1; simp at h1
    | error e =>
      simp only [Option.some.injEq] at hx
      subst hx
      refine .inl ⟨by simp [mainEnding], fun o h => ?_⟩
      obtain ⟨sh, level, h1, _⟩ := (hst o).2 h
      rw [hp] at h1; simp at h1
    | ok y =>
      obtain ⟨sh, c⟩ := y
      have hc : c = .index output profile := by
        unfold parseArgs at hp
        rw [hdir] at hp
        simp only [Option.map_some, Option.some.injEq] at hp
        split at hp <;> simp at hp
        exact hp.2.symm
      subst hc
      have hne : (∀ o level, makeOptions (surroundings Y) sh ≠ .ok (o, level)) → ∀ o, ¬ Starts Y dir g o := by
        intro h o hs
        obtain ⟨sh', level, h1, h2⟩ := (hst o).2 hs
        rw [hp] at h1
        simp only [Option.some.injEq, Res.ok.injEq, Prod.mk.injEq, and_true] at h1
        subst h1
        exact h o level h2
      simp only [Option.map_eq_some_iff] at hx
      obtain ⟨r, hr, rfl⟩ := hx
      unfold Program.command at hr
      cases hS : makeOptions (surroundings Y) sh with
      | crash =>
        rw [hS] at hr
        simp only [Option.some.injEq] at hr
        subst hr
        refine .inl ⟨?_, hne (by rw [hS]; simp)⟩
        unfold Cmd.run
        cases hp : (if profile > 0 then W.createProfile else none) <;> simp [mainEnding]
      | error e =>
        rw [hS] at hr
        simp only [Option.some.injEq] at hr
        subst hr
        refine .inl ⟨?_, hne (by rw [hS]; simp)⟩
        unfold Cmd.run
        cases hp : (if profile > 0 then W.createProfile else none) <;> simp [mainEnding]
      | ok z =>
        obtain ⟨o, level⟩ := z
        rw [hS] at hr
        simp only [Option.map_eq_some_iff] at hr
        obtain ⟨loaded, hload, rfl⟩ := hr
        exact .inr ⟨o, loaded, (hst o).1 ⟨sh, level, hp, hS⟩, hload, rfl⟩

/-- When the command `index` with accepted options succeeds. -/
theorem run_ok_iff {W : World} {profile : Int} {output : Str} {o : IndexOpts} {body : IndexOpts → Writer → Run} {before : Target} :
    (Cmd.run W profile output (.ok o) body before).exit = .ok () ↔
      (0 < profile → W.createProfile = none) ∧ (output ≠ go!"-" → W.create = none) ∧ (body o (writer W.disk)).outcome = .ok := by
  have hprof : (if profile > 0 then W.createProfile else none) = none ↔ (0 < profile → W.createProfile = none) := by
    by_cases h : profile > 0 <;> simp [h]
  rw [← hprof]
  unfold Cmd.run
  cases hp : (if profile > 0 then W.createProfile else none) with
  | some e => simp
  | none =>
    simp only [true_and]
    generalize body o (writer W.disk) = rr
    by_cases ho : output = go!"-"
    · rw [if_pos ho]
      simp only [ho, ne_eq, not_true_eq_false, false_implies, true_and]
      cases rr.outcome <;> simp
    · rw [if_neg ho]
      simp only [ne_eq, ho, not_false_eq_true, true_implies]
      cases hc : W.create with
      | some e => simp
      | none =>
        simp only [true_and]
        cases rr.outcome <;> simp

/-- **C103**, `index`: a run that succeeds could start with its flags, was given the packages it asked for, none of which needs a broken go.mod file, and could
create its files. -/
theorem C103_index_success_means (D : Deps) (answer : Query → Except Str Delivered) (env : Loader.Env) (order : Nat → Nat → List Nat) (steps fuel : Nat)
    (ord : MapOrders) (ord' : (GoMap Package → List Package) × (GoMap Package → List Package)) (Y : System) (W : World)
    (g : Given) (output : Option Str) (profile : Int) (before : Target) (hd : GoodDeliveries D answer order)
    (hm : ∀ q d, answer q = .ok d → SameModules d)
    (x : Main.Outcome) (hx : Main.main D answer env order steps fuel ord ord' Y W (.ok (g, .index output profile)) before = some x)
    (hok : x.ending.status = 0) :
    (0 < profile → W.createProfile = none) ∧ (output ≠ some go!"-" → W.create = none) ∧
    ∃ dir o d, defaultModuleRoot Y steps = some dir ∧ Starts Y dir g o ∧
      answer ⟨o.moduleRoot, !g.skipTests, if g.packagePatterns = [] then [go!"./..."] else g.packagePatterns⟩ = .ok d ∧ ¬ BrokenProgram d env o := by
  obtain ⟨dir, hdir, ⟨h, _⟩ | ⟨o, loaded, hs, hload, he⟩⟩ := index_main hx
  · exact absurd hok h
  · rw [he, status_zero, run_ok_iff] at hok
    obtain ⟨h1, h2, h3⟩ := hok
    refine ⟨h1, fun h => h2 ?_, ?_⟩
    · cases output with
      | none => decide
      | some p => intro e; exact h (by rw [← e]; rfl)
    · have hl : ∃ p, loaded = .ok p := by
        cases loaded with
        | ok p => exact ⟨p, rfl⟩
        | error e =>
          obtain ⟨_, e', h4, _⟩ := failed_load D (indexOpts o) ord (writer W.disk) e
          rw [h4] at h3; simp at h3
      obtain ⟨d, h4, h5⟩ := (load_succeeds hd hm hload).1 hl
      refine ⟨dir, o, d, hdir, hs, ?_, h5⟩
      rw [hs.skipTests, hs.patterns] at h4
      by_cases he : g.packagePatterns = [] <;> simp only [he, if_true, if_false, List.cons_ne_nil] at h4 ⊢ <;> exact h4

/-- **C103**, `index`: if moreover what is written to is not full and all texts are UTF-8, this is all that it needs to succeed. -/
theorem C103_index_succeeds_iff (D : Deps) (answer : Query → Except Str Delivered) (env : Loader.Env) (order : Nat → Nat → List Nat) (steps fuel : Nat)
    (ord : MapOrders) (ord' : (GoMap Package → List Package) × (GoMap Package → List Package)) (Y : System) (W : World)
    (g : Given) (output : Option Str) (profile : Int) (before : Target) (hd : GoodDeliveries D answer order)
    (hm : ∀ q d, answer q = .ok d → SameModules d) (hv : ValidMapOrders ord)
    (hwd : ∀ w, Y.getwd = .ok w → ∃ dir : List Str, (∀ x ∈ dir, x ≠ [] ∧ x ≠ go!"." ∧ x ≠ go!".." ∧ '/' ∉ x) ∧ w = pathOf dir)
    (hdisk : ∀ c b, W.disk c b = none)
    (htext : ∀ dir o d, defaultModuleRoot Y steps = some dir → Starts Y dir g o →
      answer ⟨o.moduleRoot, !g.skipTests, if g.packagePatterns = [] then [go!"./..."] else g.packagePatterns⟩ = .ok d →
      ProgramText d D env o ∧ ∀ i, Reachable d.graph i → DirOk (identityOpts o) (d.info i))
    (x : Main.Outcome) (hx : Main.main D answer env order steps fuel ord ord' Y W (.ok (g, .index output profile)) before = some x) :
    ∃ dir, defaultModuleRoot Y steps = some dir ∧
      (x.ending.status = 0 ↔ (0 < profile → W.createProfile = none) ∧ (output ≠ some go!"-" → W.create = none) ∧ ∃ o d, Starts Y dir g o ∧
        answer ⟨o.moduleRoot, !g.skipTests, if g.packagePatterns = [] then [go!"./..."] else g.packagePatterns⟩ = .ok d ∧ ¬ BrokenProgram d env o) := by
  obtain ⟨dir, hdir, hcases⟩ := index_main hx
  refine ⟨dir, hdir, ⟨fun h => ?_, ?_⟩⟩
  · obtain ⟨h1, h2, dir', o, d, h3, h4, h5, h6⟩ := C103_index_success_means D answer env order steps fuel ord ord' Y W g output profile before hd hm x hx h
    rw [hdir] at h3
    simp only [Option.some.injEq] at h3
    subst h3
    exact ⟨h1, h2, o, d, h4, h5, h6⟩
  · rintro ⟨h1, h2, o, d, hs, ha, hb⟩
    rcases hcases with ⟨_, h⟩ | ⟨o', loaded, hs', hload, he⟩
    · exact absurd hs (h o)
    · have : o = o' := by
        obtain ⟨sh, _, h3, h4⟩ := (starts_iff hdir (c := ())).2 hs
        obtain ⟨sh', _, h5, h6⟩ := (starts_iff hdir (c := ())).2 hs'
        rw [h3] at h5
        simp only [Option.some.injEq, Res.ok.injEq, Prod.mk.injEq, and_true] at h5
        subst h5
        rw [h4] at h6
        simp only [Res.ok.injEq, Prod.mk.injEq] at h6
        exact h6.1
      subst this
      have hq : (⟨o.moduleRoot, !o.skipTests, if o.packagePatterns = [] then [go!"./..."] else o.packagePatterns⟩ : Query) =
          ⟨o.moduleRoot, !g.skipTests, if g.packagePatterns = [] then [go!"./..."] else g.packagePatterns⟩ := by
        rw [hs.skipTests, hs.patterns]
        by_cases he : g.packagePatterns = [] <;> simp [he]
      obtain ⟨g1, g2, g3, g4, objs, g5⟩ := hd _ d ha
      have hg : GoProgram d answer order o := ⟨by rw [hq]; exact ha, g1, g2, g3⟩
      have hrun : ∀ w, indexing D answer env order fuel ord o w = some (index D (indexOpts o) ord w loaded) := by
        intro w
        unfold indexing
        rw [hload]
        rfl
      have hok' := ((C82_succeeds_iff D answer env order fuel ord o (fun _ _ => none) d objs hg g5 g4 (hm _ d ha) hv (fun _ _ => rfl) _ (hrun _)).1).2 hb
      obtain ⟨ht, hdirs⟩ := htext dir o d hdir hs ha
      have hutf := C91_program D answer env order fuel ord o (writer W.disk) d hg hv (.inr (absolute_abs hwd hs.root)) hdirs ht _ (hrun _)
      rw [he, status_zero, run_ok_iff]
      refine ⟨h1, fun h => h2 ?_, ?_⟩
      · intro e; subst e; exact h rfl
      · rw [(C50_cut_off D (indexOpts o) ord (writer W.disk) loaded).2 fun a m b hm => writer_ok hdisk (hutf m
          (by rw [show (index D (indexOpts o) ord (writer W.disk) loaded).messages = a ++ m :: b from hm]; simp))]
        exact hok'

end Verif
