import Verif.Spec.Checkout
import Verif.Props.EndToEndCommand
/-! # C101: from the repository to the symbols -/
namespace Verif
open Spec Index Program Loader Loader.Spec Cmd Git Commands Main Filepath

theorem commitVersion_ne {tags : List Str} {id v : Str} (ht : ∀ t ∈ tags, TagName t) (hid : TagName id ∧ 12 ≤ id.length) (h : CommitVersion tags id v) :
    v ≠ [] ∧ inferModuleVersion ⟨tagOutput tags, none⟩ ⟨id ++ go!"\n", none⟩ = .ok v := by
  obtain ⟨h1, h2, h3⟩ := C63_module_version tags ht id hid.1 hid.2
  cases h with
  | versionTag e hv hb =>
    exact ⟨(ht _ (by rw [e]; simp)).1, h1 _ _ _ _ e hv hb⟩
  | firstTag e hb => exact ⟨(ht _ (by rw [e]; simp)).1, h2 _ _ e hb⟩
  | commitId e =>
    refine ⟨fun h => ?_, h3 e⟩
    have : (id.take 12).length = 0 := by rw [h]; rfl
    rw [List.length_take] at this
    omega

theorem abs_denoted {dir : List Str} (hn : ∀ x ∈ dir, Name x) (path : Str) :
    Main.abs (.ok (pathOf dir)) path = .ok (pathOf (denoted dir path)) ∧ ∀ x ∈ denoted dir path, Name x := by
  unfold Main.abs denoted
  by_cases h : path.head? = some '/'
  · rw [if_pos (isAbs_iff.2 h), if_pos h, clean_abs h]
    exact ⟨rfl, (cleanComps_abs h).2⟩
  · have hi : ¬ isAbs path = true := fun hh => h (isAbs_iff.1 hh)
    rw [if_neg hi, if_neg h]
    have ha : Absolute (pathOf dir ++ go!"/" ++ path) := rfl
    have hd : directory (pathOf dir ++ go!"/" ++ path) = (Str.splitOn '/' path).foldl enter dir := by
      have e : pathOf dir ++ go!"/" ++ path = pathOf dir ++ '/' :: path := by simp
      unfold directory
      rw [e, splitOn_sep, List.foldl_append]
      congr 1
      exact directory_pathOf hn
    rw [← hd]
    show Except.ok _ = Except.ok _ ∧ _
    exact ⟨by rw [clean_abs ha]; rfl, (cleanComps_abs ha).2⟩

theorem root_found {Y : System} {dir tags : List Str} {id : Str} (h : InRepository Y dir tags id) {steps : Nat} {root : Str}
    (hr : defaultModuleRoot Y steps = some root) : root = go!"." := by
  unfold defaultModuleRoot at hr
  obtain ⟨top, ht, hl, hp⟩ := h.top
  cases steps with
  | zero => simp [searchForGoMod, searchLoop] at hr
  | succ n =>
    have : toplevel Y.showToplevel = top := by
      rw [ht]; simp [toplevel, Git.command, trimSpace_line hl]
    rw [this, h.wd] at hr
    rw [C65_inside_repository Y.stat top _ n (by simpa [workingDirectory] using hp)] at hr
    simpa using hr.symm

/-- **C101** (options): in the working directory of a git repository the flags that are not given are found as specified. -/
theorem C101_options (Y : System) (dir tags : List Str) (id : Str) (g : Given) (root : List Str) (module version goVersion : Str)
    (hrepo : InRepository Y dir tags id) (hi : Indexed Y dir tags id g root module version goVersion) (hmod : module ≠ [])
    {α : Type} (steps : Nat) (c : α) (sh : SharedFlags) (c' : α) (hp : parseArgs Y steps (.ok (g, c)) = some (.ok (sh, c')))
    (o : IndexOpts) (level : Level) (ho : makeOptions (surroundings Y) sh = .ok (o, level)) :
    c' = c ∧ o = { moduleRoot := pathOf root, moduleVersion := version, modulePath := module
                   isGoPackagesDriverSet := driverSet Y.driver, goStdlibVersion := goVersion
                   skipImplementations := g.skipImplementations, skipTests := g.skipTests, isIndexingStdlib := decide (module = go!"std")
                   packagePatterns := if g.packagePatterns = [] then [go!"./..."] else g.packagePatterns, arguments := Y.args } ∧
      getLogLevel g.quiet g.verbose = some level := by
  unfold parseArgs at hp
  simp only [Option.map_eq_some_iff] at hp
  obtain ⟨r0, hr0, hp⟩ := hp
  have := root_found hrepo hr0
  subst this
  split at hp
  · simp at hp
  · simp at hp
  · rename_i D hD
    simp only [Res.ok.injEq, Prod.mk.injEq] at hp
    obtain ⟨rfl, rfl⟩ := hp
    refine ⟨rfl, ?_⟩
    have hroot : Main.abs Y.getwd (g.moduleRoot.getD go!".") = .ok (pathOf root) ∧ ∀ x ∈ root, Name x := by
      have h1 := hi.atRoot
      rw [hrepo.wd]
      cases hg : g.moduleRoot with
      | some p => rw [hg] at h1; simp only at h1; subst h1; exact abs_denoted hrepo.names p
      | none =>
        rw [hg] at h1; simp only at h1; subst h1
        have := abs_denoted hrepo.names go!"."
        have e : denoted root go!"." = root := by
          have : Str.splitOn '/' go!"." = [go!"."] := by decide
          unfold denoted
          rw [if_neg (by decide), this]
          simp [enter]
        rw [e] at this
        exact this
    have hname : moduleName Y.modules (pathOf root) (g.repositoryRemote.getD D.remote) (g.modulePath.getD []) =
        .ok (module, decide (module = go!"std")) := by
      have h1 := hi.named
      unfold GivenOr at h1
      cases hg : g.modulePath with
      | some p => rw [hg] at h1; simp only at h1; subst h1; exact (C64_module_name_partial Y.modules _ _ _).1 hmod
      | none =>
        rw [hg] at h1; simp only at h1
        obtain ⟨data, hd1, hd2⟩ := h1
        exact (C64_module_name_partial Y.modules _ _ _).2.1 data module rfl (by rw [goModIn_pathOf hroot.2]; exact hd1) hd2
    have hver : g.moduleVersion.getD D.version = version := by
      have h1 := hi.versioned
      unfold GivenOr at h1
      cases hg : g.moduleVersion with
      | some p => rw [hg] at h1; exact h1.symm
      | none =>
        rw [hg] at h1; simp only at h1
        have h2 := (commitVersion_ne hrepo.tagNames hrepo.commit h1).2
        rcases (C77_defaults _ _ _ D hD).2.2.1 with ⟨v, hv, hv'⟩ | ⟨⟨e, he⟩, _⟩
        · rw [hrepo.tagList, hrepo.head, h2] at hv
          simp only [Res.ok.injEq] at hv
          simp [hv', hv]
        · rw [hrepo.tagList, hrepo.head, h2] at he; simp at he
    have hgo : g.goVersion.getD D.goVersion = goVersion := by
      have h1 := hi.goVersioned
      unfold GivenOr at h1
      cases hg : g.goVersion with
      | some p => rw [hg] at h1; exact h1.symm
      | none =>
        rw [hg] at h1; simp only at h1
        obtain ⟨v, ⟨h2, h3⟩, rfl⟩ := h1
        exact (C77_defaults _ _ _ D hD).2.2.2.2.2.1 v h2 h3
    unfold makeOptions at ho
    have e1 : (surroundings Y).abs (sharedFlags go!"." D g).moduleRoot = .ok (pathOf root) := hroot.1
    have e2 : (surroundings Y).moduleName (pathOf root) (sharedFlags go!"." D g).repositoryRemote (sharedFlags go!"." D g).modulePath =
      .ok (module, decide (module = go!"std")) := hname
    rw [e1] at ho
    simp only at ho
    cases hl : getLogLevel (sharedFlags go!"." D g).quiet (sharedFlags go!"." D g).verbose with
    | none => rw [hl] at ho; simp at ho
    | some l =>
      rw [hl] at ho
      simp only [e2, Res.ok.injEq, Prod.mk.injEq] at ho
      obtain ⟨rfl, rfl⟩ := ho
      refine ⟨?_, hl⟩
      simp only [sharedFlags, surroundings, hver, hgo]

theorem reportedAs_go {x v : Str} (h : ReportedAs x v) (hg : go!"go" <+: x) : v = x := by
  have hno : ∀ {y b : Str}, go!"go" <+: y → ¬ Semver.Spec.Version y b := by
    rintro y b ⟨t, rfl⟩ hv
    have := Semver.isValid_iff.2 ⟨b, hv⟩
    revert this
    simp [Semver.isValid, Semver.parse]
  cases h with
  | pseudo hp => obtain ⟨⟨b, hb⟩, _⟩ := hp; exact absurd hb (hno hg)
  | build hv => exact absurd hv (hno hg)
  | plain => rfl

theorem orDot_ne {s : Str} (h : s ≠ []) : orDot s = s := by simp [orDot, h]

/-- A delivered package is identified as specified. -/
theorem identifiedAs_of {env : Loader.Env} {opts : Loader.Opts} {p : PkgSt} {path v : Str} {root : List Str} {module version goVersion : Str}
    (hnames : ∀ x ∈ root, Name x) (ho : opts.moduleRoot = pathOf root) (hm : opts.modulePath = module) (hv : opts.moduleVersion = version)
    (hg : opts.goVersion = goVersion) (hd : opts.driverSet = false) (hs : opts.stdlib = false) (hm0 : module ≠ []) (hmstd : module ≠ go!"std")
    (hmdot : ¬ go!"." <+: module) (hv0 : version ≠ []) (hg0 : goVersion ≠ []) (h : Identity env opts p path v) :
    IdentifiedAs root module version goVersion p path v := by
  have hpv : projectVersion opts = version := by simp [projectVersion, hv, hv0]
  have hroot : directory opts.moduleRoot = root := by rw [ho]; exact directory_pathOf hnames
  have habs : Absolute opts.moduleRoot := by rw [ho]; rfl
  -- what a package of a module gets
  have key : ∀ m, p.module = some m → m.path ≠ go!"std" → (standsFor opts m).path ≠ [] → ¬ go!"." <+: (standsFor opts m).path →
      path = (standsFor opts m).path ∧ IndexedVersion env opts (standsFor opts m).dir (standsFor opts m).path (standsFor opts m).version v := by
    intro m hpm hne h0 hdot
    cases h with
    | driver h1 => rw [hd] at h1; simp at h1
    | standard _ h1 _ =>
      exfalso
      rcases h1 with h1 | ⟨m', h1, h2⟩ | h1
      · rw [hpm] at h1; simp at h1
      · rw [hpm] at h1; simp only [Option.some.injEq] at h1; subst h1; exact hne h2
      · rw [hs] at h1; simp at h1
    | @module m' path' w v' _ _ h1 h2 h3 h4 =>
      rw [hpm] at h1
      simp only [Option.some.injEq] at h1
      subst h1
      have e1 : path' = (standsFor opts m).path := by
        cases h2 with
        | delivered => rfl
        | goMod hl => exact absurd hl.1 hdot
      have e2 : w = (standsFor opts m).version := by
        cases h3 with
        | delivered => rfl
        | goMod hl => exact absurd hl.1 hdot
      subst e1
      rw [orDot_ne h0] at h4 ⊢
      rw [e2] at h4
      exact ⟨rfl, h4⟩
  have ver : ∀ {dir q w}, w ≠ [] → IndexedVersion env opts dir q w v → ReportedAs w v := by
    intro dir q w hw hh
    cases hh with
    | versioned _ h => exact h
    | ofProject => exact absurd rfl hw
    | foreign => exact absurd rfl hw
  have proj : ∀ {dir q}, BelongsToProject env opts dir q → IndexedVersion env opts dir q [] v → v = version := by
    intro dir q hb hh
    cases hh with
    | versioned h => exact absurd rfl h
    | ofProject => exact hpv
    | foreign hf => exact absurd hb hf
  refine ⟨?_, ?_, ?_, ?_, ?_⟩
  · intro hstd
    have hS : Standard opts p := by
      rcases hstd with h1 | h1
      · exact .inl h1
      · exact .inr (.inl h1)
    cases h with
    | driver h1 => rw [hd] at h1; simp at h1
    | module _ h1 => exact absurd hS h1
    | standard _ _ h1 =>
      rw [hg] at h1
      have := ver hg0 h1
      exact ⟨rfl, this, fun h2 => reportedAs_go this h2⟩
  · intro m hpm hr hmp hmv
    have e : standsFor opts m = m.toModBase := by simp [standsFor, hr]
    have := key m hpm (by rw [hmp]; exact hmstd) (by rw [e, hmp]; exact hm0) (by rw [e, hmp]; exact hmdot)
    rw [e, hmp, hmv] at this
    exact ⟨this.1, proj (.inr (.inl hm.symm)) this.2⟩
  · intro m hpm hr h1 h2 h3 h4
    have e : standsFor opts m = m.toModBase := by simp [standsFor, hr]
    have := key m hpm h1 (by rw [e]; exact h2) (by rw [e]; exact h3)
    rw [e] at this
    exact ⟨this.1, ver h4 this.2⟩
  · intro m r hpm hr h1 h2 h3 h4
    have e : standsFor opts m = r := by simp [standsFor, hr, h4]
    have := key m hpm h1 (by rw [e]; exact h2) (by rw [e]; exact h3)
    rw [e] at this
    exact ⟨this.1, ver h4 this.2⟩
  · intro m hpm hr h1 h2 h3 h4 h5 h6
    have e : standsFor opts m = m.toModBase := by simp [standsFor, hr]
    have := key m hpm h1 (by rw [e]; exact h2) (by rw [e]; exact h3)
    rw [e, h4] at this
    exact ⟨this.1, proj (.inl ⟨h5, habs, by rw [hroot]; exact h6⟩) this.2⟩

/-- What a successful command leaves are the messages of a successful run of indexing. -/
theorem command_succeeded {D : Deps} {answer : Query → Except Str Delivered} {env : Loader.Env} {order : Nat → Nat → List Nat} {fuel : Nat} {ord : MapOrders}
    {S : Surroundings} {sh : SharedFlags} {W : World} {profile : Int} {output : Str} {before : Target} {r : Result}
    (hr : Program.command D answer env order fuel ord S sh W profile output before = some r) (hok : r.exit = .ok ()) :
    ∃ o level run, makeOptions S sh = .ok (o, level) ∧ indexing D answer env order fuel ord o (writer W.disk) = some run ∧ run.outcome = .ok ∧
      (output = go!"-" → r.piped = contentAfter W.disk run.messages ∧ r.target = before) ∧
      (output ≠ go!"-" → r.piped = [] ∧ r.target = if before = .special then .special else .regular (contentAfter W.disk run.messages)) ∧ Decodes (contentAfter W.disk run.messages) run.messages := by
  unfold Program.command at hr
  cases hS : makeOptions S sh with
  | error e =>
    rw [hS] at hr
    simp only [Option.some.injEq] at hr
    subst hr
    unfold Cmd.run at hok
    split at hok <;> simp at hok
  | crash =>
    rw [hS] at hr
    simp only [Option.some.injEq] at hr
    subst hr
    unfold Cmd.run at hok
    split at hok <;> simp at hok
  | ok x =>
    obtain ⟨o, level⟩ := x
    rw [hS] at hr
    simp only [Option.map_eq_some_iff] at hr
    obtain ⟨loaded, hload, rfl⟩ := hr
    have hrun : indexing D answer env order fuel ord o (writer W.disk) = some (index D (indexOpts o) ord (writer W.disk) loaded) := by
      unfold indexing; rw [hload]; rfl
    refine ⟨o, level, _, rfl, hrun, ?_⟩
    have hdec := C52_successful_run_decodes D ord (fun _ => loaded) o W.disk
    have e : indexingOf D ord (fun _ => loaded) o (writer W.disk) = index D (indexOpts o) ord (writer W.disk) loaded := rfl
    rw [e] at hdec
    clear e hrun
    generalize hR : Cmd.run W profile output (.ok o) (fun o w => index D (indexOpts o) ord w loaded) before = R at hok ⊢
    unfold Cmd.run at hR
    cases hp : (if profile > 0 then W.createProfile else none) with
    | some e => rw [hp] at hR; simp only at hR; subst hR; simp at hok
    | none =>
      rw [hp] at hR
      simp only at hR
      generalize index D (indexOpts o) ord (writer W.disk) loaded = rr at *
      by_cases ho : output = go!"-"
      · rw [if_pos ho] at hR
        cases hout : rr.outcome with
        | ok => rw [hout] at hR; subst hR; exact ⟨rfl, fun _ => ⟨rfl, rfl⟩, fun h => absurd ho h, hdec hout⟩
        | failed e => rw [hout] at hR; subst hR; simp at hok
        | crash => rw [hout] at hR; subst hR; simp at hok
      · rw [if_neg ho] at hR
        cases hc : W.create with
        | some e => rw [hc] at hR; simp only at hR; subst hR; simp at hok
        | none =>
          rw [hc] at hR
          simp only at hR
          cases hout : rr.outcome with
          | ok =>
            rw [hout] at hR
            subst hR
            refine ⟨rfl, fun h => absurd h ho, fun _ => ⟨rfl, ?_⟩, hdec hout⟩
            cases before <;> rfl
          | failed e => rw [hout] at hR; subst hR; simp at hok
          | crash => rw [hout] at hR; subst hR; simp at hok

/-- Where the index is after a run that ended with status 0: on standard output, or in the file. -/
def Spec.IndexIn (output : Option Str) (before : Target) (x : Main.Outcome) (ms : List Message) : Prop :=
  if output = some go!"-" then Decodes x.piped ms ∧ x.target = before
  else before = .special ∧ x.target = .special ∨ before ≠ .special ∧ ∃ c, x.target = .regular c ∧ Decodes c ms

/-- **C101.** The command `index`, started in a directory of a git repository without a packages driver: if it ends with status 0, what it has written is
an index in which every symbol is local or names a package of the program, identified by module path and version — those of the standard
library by the Go version; those of the module that is indexed by the module path that its go.mod file declares and by the tag, or the
id, of the current commit; those of dependencies by their own path and version — unless flags say otherwise. -/
theorem C101_symbols (D : Deps) (answer : Query → Except Str Delivered) (env : Loader.Env) (order : Nat → Nat → List Nat) (steps fuel : Nat)
    (ord : MapOrders) (ord' : (GoMap Package → List Package) × (GoMap Package → List Package)) (Y : System) (W : World)
    (g : Given) (output : Option Str) (profile : Int) (before : Target) (dir tags : List Str) (id : Str) (root : List Str)
    (module version goVersion : Str) (d : Delivered) (objs : List Obj)
    (hrepo : InRepository Y dir tags id) (hi : Indexed Y dir tags id g root module version goVersion) (hdriver : NoDriver Y)
    (hmod : module ≠ [] ∧ module ≠ go!"std" ∧ ¬ go!"." <+: module) (hver : g.moduleVersion ≠ some []) (hgo : g.goVersion ≠ some [])
    (hanswer : answer ⟨pathOf root, !g.skipTests, if g.packagePatterns = [] then [go!"./..."] else g.packagePatterns⟩ = .ok d)
    (horder : ValidOrder d.graph order) (hpaths : NoStdPrefix d.info) (hvariants : GoVariants d) (ht : TypedProgram d D objs)
    (hv : ValidMapOrders ord) (horig : ∀ r ∈ objs, ∀ q, (entityOf r).cls ≠ .pkgName q)
    (hdir : ∀ i, Reachable d.graph i → ∀ m, (d.info i).module = some m → (∀ r, m.replace = some r → r.dir = [] ∨ Absolute r.dir) ∧
      (m.replace = none → m.dir = [] ∨ Absolute m.dir))
    (x : Main.Outcome) (hx : Main.main D answer env order steps fuel ord ord' Y W (.ok (g, .index output profile)) before = some x)
    (hstatus : x.ending.status = 0) :
    ∃ ms, IndexIn output before x ms ∧ ∀ m ∈ ms, EverySymbol (SymbolOf d root module version goVersion) m := by
  unfold Main.main at hx
  cases hp : parseArgs Y steps (.ok (g, Selected.index output profile)) with
  | none => rw [hp] at hx; simp at hx
  | some res =>
    rw [hp] at hx
    cases res with
    | crash => simp only [Option.some.injEq] at hx; subst hx; simp [mainEnding] at hstatus
    | error e => simp only [Option.some.injEq] at hx; subst hx; simp [mainEnding] at hstatus
    | ok y =>
      obtain ⟨sh, c⟩ := y
      have hc : c = .index output profile := by
        unfold parseArgs at hp
        simp only [Option.map_eq_some_iff] at hp
        obtain ⟨r0, _, hp⟩ := hp
        split at hp <;> simp at hp
        exact hp.2.symm
      subst hc
      simp only [Option.map_eq_some_iff] at hx
      obtain ⟨r, hr, rfl⟩ := hx
      have hexit : r.exit = .ok () := by
        cases he : r.exit with
        | ok u => rfl
        | error e => simp [he, mainEnding] at hstatus
        | crash => simp [he, mainEnding] at hstatus
      obtain ⟨o, level, run, hS, hrun, hout, h1, h2, h3⟩ := command_succeeded hr hexit
      obtain ⟨_, ho, _⟩ := C101_options Y dir tags id g root module version goVersion hrepo hi hmod.1 steps _ sh _ hp o level hS
      have hnd : driverSet Y.driver = false := by
        rcases hdriver with h | h <;> rw [h] <;> rfl
      have hnames : ∀ x ∈ root, Name x := by
        have h1 := hi.atRoot
        cases hg : g.moduleRoot with
        | some p => rw [hg] at h1; simp only at h1; subst h1; exact (abs_denoted hrepo.names p).2
        | none => rw [hg] at h1; simp only at h1; subst h1; exact hrepo.names
      have hv0 : version ≠ [] := by
        have h1 := hi.versioned
        unfold GivenOr at h1
        cases hg : g.moduleVersion with
        | some p => rw [hg] at h1; simp only at h1; subst h1; intro h; subst h; exact hver hg
        | none => rw [hg] at h1; exact (commitVersion_ne hrepo.tagNames hrepo.commit h1).1
      have hg0 : goVersion ≠ [] := by
        have h1 := hi.goVersioned
        unfold GivenOr at h1
        cases hg : g.goVersion with
        | some p => rw [hg] at h1; simp only at h1; subst h1; intro h; subst h; exact hgo hg
        | none => rw [hg] at h1; obtain ⟨v, _, rfl⟩ := h1; simp
      have hprog : GoProgram d answer order o := by
        refine ⟨?_, horder, hpaths, hvariants⟩
        rw [ho]
        simp only
        by_cases hpp : g.packagePatterns = []
        · simpa [hpp] using hanswer
        · simpa [hpp] using hanswer
      have hroot : o.moduleRoot = [] ∨ Absolute o.moduleRoot := by rw [ho]; exact .inr rfl
      have hdirs : ∀ i, Reachable d.graph i → DirOk (identityOpts o) (d.info i) := by
        intro i hi m hm
        obtain ⟨a, b⟩ := hdir i hi m hm
        unfold standsFor
        cases hr : m.replace with
        | none => exact b hr
        | some r => simp only; split <;> exact a r hr
      have up : ∀ s, OfDelivered d env o s → SymbolOf d root module version goVersion s := by
        rintro s ⟨q, path, v, ds, hid, rfl⟩
        refine ⟨q, path, v, ds, rfl, ?_⟩
        rcases hid with ⟨h1, h2, h3⟩ | ⟨i, h1, h2, h3⟩
        · exact .inl ⟨h1, h2, by rw [h3, ho]⟩
        · refine .inr ⟨i, h1, h2, identifiedAs_of hnames ?_ ?_ ?_ ?_ ?_ ?_ hmod.1 hmod.2.1 hmod.2.2 hv0 hg0 h3⟩ <;>
            simp [identityOpts, ho, hnd, hmod.2.1]
      refine ⟨run.messages, ?_, ?_⟩
      · unfold IndexIn
        by_cases hdash : output = some go!"-"
        · subst hdash
          rw [if_pos rfl]
          obtain ⟨e1, e2⟩ := h1 rfl
          exact ⟨by simp only [e1]; exact h3, e2⟩
        · rw [if_neg hdash]
          have hne : output.getD go!"index.scip" ≠ go!"-" := by
            cases output with
            | none => decide
            | some s => simpa using hdash
          obtain ⟨_, e2⟩ := h2 hne
          cases before with
          | special => exact .inl ⟨rfl, e2⟩
          | absent => exact .inr ⟨by simp, _, e2, h3⟩
          | regular c => exact .inr ⟨by simp, _, e2, h3⟩
      · intro m hm
        have := C83_every_symbol_identified D answer env order fuel ord o (writer W.disk) d objs hprog ht hv horig hroot hdirs run hrun m hm
        cases m with
        | metadata => trivial
        | document path occs syms =>
          exact ⟨fun x hx => (this.1 x hx).imp_right (up _), fun s hs => ⟨(this.2 s hs).1.imp_right (up _), fun x hx => up _ ((this.2 s hs).2 x hx)⟩⟩
        | external sym rels => exact ⟨up _ this.1, fun x hx => up _ (this.2 x hx)⟩

end Verif
