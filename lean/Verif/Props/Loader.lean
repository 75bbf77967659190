import Verif.Lemmas.CollectEnd
/-!
# C37-C48: loading packages
-/
namespace Verif
open Loader Loader.Spec Semver.Spec Spec

variable {env : Env} {opts : Opts} {g : Graph} {order : Nat → Nat → List Nat} {pkgs : Nat → PkgSt} {fuel : Nat} {l : Loaded}

theorem withVersion_version (opts : Opts) : (withVersion opts).moduleVersion = projectVersion opts ∧ projectVersion opts ≠ [] := by
  unfold withVersion projectVersion
  split
  · exact ⟨rfl, by simp⟩
  · rename_i h; exact ⟨rfl, h⟩

theorem withVersion_rest (opts : Opts) : (withVersion opts).moduleRoot = opts.moduleRoot ∧ (withVersion opts).modulePath = opts.modulePath ∧
    (withVersion opts).driverSet = opts.driverSet ∧ (withVersion opts).goVersion = opts.goVersion ∧ (withVersion opts).stdlib = opts.stdlib := by
  unfold withVersion
  split <;> exact ⟨rfl, rfl, rfl, rfl, rfl⟩

/-- **C37.** After loading, every package, including `builtin`, has a module with non-empty path; its version is non-empty, except for
`builtin` if no Go version is configured. -/
theorem C37_every_package_has_identity (ho : ValidOrder g order)
    (h : loadPackages env opts (some (g, pkgs)) order fuel = some (some l)) {k : Str} {x : Kept} (hk : l.st.all.get k = some x) :
    ∃ m, moduleOf opts l.st x = some m ∧ m.path ≠ [] ∧ (m.version = [] ↔ x = .builtin ∧ opts.goVersion = []) := by
  obtain ⟨hI, -⟩ := load_inv ho h
  cases x with
  | builtin => exact ⟨_, rfl, by simp, by simp⟩
  | loaded i =>
    obtain ⟨p, hn⟩ := hI.normal k i hk
    obtain ⟨m, hm⟩ := normalize_module hn
    have hv := withVersion_version opts
    obtain ⟨h1, h2⟩ := normalize_nonempty (by rw [hv.1]; exact hv.2) hn hm
    exact ⟨m, hm, h1, by simp [h2]⟩

theorem hasPrefix_iff {s p : Str} : Str.hasPrefix s p = true ↔ p <+: s := by
  unfold Str.hasPrefix; rw [List.isPrefixOf_iff_prefix]

/-- What normalising does to a package of an ordinary module. -/
theorem normalize_userland {p q : PkgSt} {m : ModInfo} (hu : Userland opts p m) (h : normalize env opts p = some q) :
    q.path = p.path ∧ ∃ m' v path, q.module = some m' ∧ m'.replace = none ∧ m'.dir = (effective m).dir ∧ m'.goMod = (effective m).goMod ∧
      ComesWithVersion env (replaceStep opts m) v ∧ ComesWithPath env (effective m) path ∧
      m'.path = (if path = [] then go!"." else path) ∧
      m'.version = (versionStep env opts ⟨m'.path, v, (effective m).dir, (effective m).goMod⟩).version := by
  unfold normalize at h
  rw [if_neg (by simp [hu.noDriver])] at h
  have hs : standardStep opts p = (p.path, m) := by
    unfold standardStep isStandardLib
    rw [hu.module, hu.noStd]
    rw [if_neg (by simpa using hu.notStd)]
    rfl
  rw [hs] at h
  simp only at h
  have hr : (replaceStep opts m).path = (effective m).path ∧ (replaceStep opts m).dir = (effective m).dir ∧ (replaceStep opts m).goMod = (effective m).goMod := by
    unfold replaceStep effective
    cases m.replace with
    | none => exact ⟨rfl, rfl, rfl⟩
    | some r => simp only [Option.getD_some]; split <;> exact ⟨rfl, rfl, rfl⟩
  cases hl : localStep env (replaceStep opts m) with
  | none => simp [hl] at h
  | some b =>
    rw [hl] at h
    simp only [Option.some.injEq] at h
    subst h
    have key : b.dir = (effective m).dir ∧ b.goMod = (effective m).goMod ∧ ComesWithVersion env (replaceStep opts m) b.version ∧
        ComesWithPath env (effective m) b.path := by
      unfold localStep at hl
      split at hl
      · rename_i hc
        simp only [Bool.and_eq_true, hasPrefix_iff, decide_eq_true_eq] at hc
        have hloc : Loader.Spec.IsLocal (replaceStep opts m) := hc
        have hloc' : Loader.Spec.IsLocal (effective m) := by
          unfold Loader.Spec.IsLocal at hloc ⊢; rw [← hr.1, ← hr.2.2]; exact hloc
        split at hl
        · rename_i hu
          simp only [Option.some.injEq] at hl; subst hl
          refine ⟨hr.2.1, hr.2.2, .delivered fun _ => .inl hu, ?_⟩
          have := ComesWithPath.delivered (env := env) (e := effective m) fun _ => by rw [← hr.2.2]; exact hu
          rw [hr.1]; exact this
        · simp at hl
        · rename_i path version hu
          simp only [Option.some.injEq] at hl; subst hl
          refine ⟨hr.2.1, hr.2.2, ?_, .goMod hloc' (by rw [← hr.2.2]; exact hu)⟩
          simp only
          split
          · rename_i hv; exact .goMod hloc hu hv
          · rename_i hv
            exact .delivered fun _ => .inr ⟨path, by rw [hu]; simpa using hv⟩
      · rename_i hc
        simp only [Option.some.injEq] at hl; subst hl
        have hloc : ¬ Loader.Spec.IsLocal (replaceStep opts m) := by
          intro h; apply hc; simp [hasPrefix_iff, h.1, h.2]
        have hloc' : ¬ Loader.Spec.IsLocal (effective m) := by
          unfold Loader.Spec.IsLocal at hloc ⊢; rw [← hr.1, ← hr.2.2]; exact hloc
        refine ⟨hr.2.1, hr.2.2, .delivered fun h => absurd h hloc, ?_⟩
        rw [hr.1]; exact .delivered fun h => absurd h hloc'
    obtain ⟨h1, h2, h3, h4⟩ := key
    refine ⟨rfl, _, b.version, b.path, rfl, rfl, ?_, ?_, h3, h4, ?_, ?_⟩
    · rw [← h1]; unfold versionStep pathStep; split <;> split <;> (try split) <;> rfl
    · rw [← h2]; unfold versionStep pathStep; split <;> split <;> (try split) <;> rfl
    · unfold versionStep pathStep; split <;> split <;> (try split) <;> rfl
    · have e : pathStep b = ⟨(versionStep env opts (pathStep b)).path, b.version, (effective m).dir, (effective m).goMod⟩ := by
        rw [← h1, ← h2]
        unfold versionStep pathStep; split <;> split <;> (try split) <;> rfl
      simp only
      rw [← e]

theorem versionStep_nonempty {b : ModBase} (h : b.version ≠ []) : (versionStep env opts b).version = reduceVersion b.version := by
  unfold versionStep; rw [if_neg h]

theorem withVersion_userland {p : PkgSt} {m : ModInfo} (h : Userland opts p m) : Userland (withVersion opts) p m := by
  obtain ⟨-, -, h1, -, h2⟩ := withVersion_rest opts
  exact ⟨by rw [h1]; exact h.noDriver, by rw [h2]; exact h.noStd, h.module, h.notStd⟩

/-- A delivered non-empty version survives the replacement step. -/
theorem comes_replace {m : ModInfo} {v : Str} (hv : (effective m).version ≠ []) :
    ComesWithVersion env (replaceStep opts m) v ↔ ComesWithVersion env (effective m) v := by
  have : replaceStep opts m = effective m := by
    unfold replaceStep; unfold effective at hv ⊢
    cases h : m.replace with
    | none => rfl
    | some r => rw [h] at hv; simp only [Option.getD_some] at hv ⊢; rw [if_neg hv]
  rw [this]

theorem comes_unique {e : ModBase} {v w : Str} (h : ComesWithVersion env e v) (h' : ComesWithVersion env e w) : v = w := by
  cases h with
  | delivered h =>
    cases h' with
    | delivered _ => rfl
    | goMod h1 h2 h3 =>
      rcases h h1 with h | ⟨p, h⟩ <;> rw [h2] at h
      · simp at h
      · simp only [ModRead.parsed.injEq] at h; exact absurd h.2 h3
  | goMod h1 h2 h3 =>
    cases h' with
    | delivered h =>
      rcases h h1 with h | ⟨p, h⟩ <;> rw [h2] at h
      · simp at h
      · simp only [ModRead.parsed.injEq] at h; exact absurd h.2 h3
    | goMod h4 h5 h6 => rw [h2] at h5; simp only [ModRead.parsed.injEq] at h5; exact h5.2

/-- The version of a package whose module comes with a version. -/
theorem version_of_kept (ho : ValidOrder g order) (hp : PathsOnce opts pkgs)
    (h : loadPackages env opts (some (g, pkgs)) order fuel = some (some l)) {k : Str} {i : Nat} {m : ModInfo}
    (hk : l.st.all.get k = some (.loaded i)) (hu : Userland opts (pkgs i) m) {v : Str} (hv : ComesWithVersion env (effective m) v) (hne : v ≠ []) (hne' : (effective m).version ≠ []) :
    ∃ m', (l.st.pkgs i).module = some m' ∧ m'.version = reduceVersion v := by
  have hn := (load_invN ho hp h).kept k i hk
  obtain ⟨-, m', v', path, h1, -, -, -, h2, -, -, h3⟩ := normalize_userland (withVersion_userland hu) hn
  rw [comes_replace hne'] at h2
  have := comes_unique h2 hv
  subst this
  refine ⟨m', h1, ?_⟩
  rw [h3, versionStep_nonempty (by exact hne)]

/-- **C39.** If the version a package's module comes with is a pseudo-version with revision `rev`, the package gets exactly `rev`. -/
theorem C39_pseudo_version_becomes_revision (ho : ValidOrder g order) (hp : PathsOnce opts pkgs)
    (h : loadPackages env opts (some (g, pkgs)) order fuel = some (some l)) {k : Str} {i : Nat} {m : ModInfo}
    (hk : l.st.all.get k = some (.loaded i)) (hu : Userland opts (pkgs i) m) (hne : (effective m).version ≠ []) {v rev : Str}
    (hv : ComesWithVersion env (effective m) v) (hr : PseudoVersion v rev) :
    ∃ m', (l.st.pkgs i).module = some m' ∧ m'.version = rev := by
  obtain ⟨m', h1, h2⟩ := version_of_kept ho hp h hk hu hv (by rintro rfl; obtain ⟨⟨b, h⟩, -⟩ := hr; cases h) hne
  exact ⟨m', h1, by rw [h2, reduce_pseudo hr]⟩

/-- A pseudo-version has only one revision. -/
theorem C39_revision_unique {v rev rev' : Str} (h : PseudoVersion v rev) (h' : PseudoVersion v rev') : rev = rev' := by
  have h1 := Semver.rev_of h
  rw [Semver.rev_of h'] at h1
  simpa using h1.symm

/-- **C40.** A semantic version with build metadata that is not a pseudo-version loses exactly the metadata. -/
theorem C40_build_metadata_dropped (ho : ValidOrder g order) (hp : PathsOnce opts pkgs)
    (h : loadPackages env opts (some (g, pkgs)) order fuel = some (some l)) {k : Str} {i : Nat} {m : ModInfo}
    (hk : l.st.all.get k = some (.loaded i)) (hu : Userland opts (pkgs i) m) (hne : (effective m).version ≠ []) {core b : Str}
    (hv : ComesWithVersion env (effective m) (core ++ b)) (hb : Version (core ++ b) b) (hbn : b ≠ [])
    (hr : ∀ rev, ¬ PseudoVersion (core ++ b) rev) :
    ∃ m', (l.st.pkgs i).module = some m' ∧ m'.version = core := by
  obtain ⟨m', h1, h2⟩ := version_of_kept ho hp h hk hu hv (by simp [hbn]) hne
  exact ⟨m', h1, by rw [h2, reduce_build hb hbn rfl hr]⟩

/-- **C40.** Any other non-empty version is kept. -/
theorem C40_other_versions_kept (ho : ValidOrder g order) (hp : PathsOnce opts pkgs)
    (h : loadPackages env opts (some (g, pkgs)) order fuel = some (some l)) {k : Str} {i : Nat} {m : ModInfo}
    (hk : l.st.all.get k = some (.loaded i)) (hu : Userland opts (pkgs i) m) (hne : (effective m).version ≠ []) {v : Str}
    (hv : ComesWithVersion env (effective m) v) (hvn : v ≠ []) (hb : ∀ b, Version v b → b = []) (hr : ∀ rev, ¬ PseudoVersion v rev) :
    ∃ m', (l.st.pkgs i).module = some m' ∧ m'.version = v := by
  obtain ⟨m', h1, h2⟩ := version_of_kept ho hp h hk hu hv hvn hne
  exact ⟨m', h1, by rw [h2, reduce_other hb hr]⟩

/-- **C41.** With a packages driver every loaded package belongs to the configured module, whatever was reported for it, and keeps
its path. -/
theorem C41_driver_packages_belong_to_module (ho : ValidOrder g order) (hd : opts.driverSet = true)
    (h : loadPackages env opts (some (g, pkgs)) order fuel = some (some l)) {k : Str} {i : Nat} (hk : l.st.all.get k = some (.loaded i)) :
    (pkgs i).path = k ∧ (l.st.pkgs i).path = k ∧ ∃ m, (l.st.pkgs i).module = some m ∧
      m.path = (if opts.modulePath = [] then go!"." else opts.modulePath) ∧ m.version = projectVersion opts := by
  have hN := load_invN ho (.inl hd) h
  have hn := hN.kept k i hk
  have hd' : (withVersion opts).driverSet = true := by rw [(withVersion_rest opts).2.2.1]; exact hd
  rw [normalize_driver hd'] at hn
  simp only [Option.some.injEq] at hn
  have hkey := hN.key k i hk
  rw [← hn] at hkey ⊢
  refine ⟨hkey, hkey, _, rfl, ?_, ?_⟩
  · unfold driverStep
    rw [(withVersion_rest opts).2.1]
    by_cases hm : opts.modulePath = [] <;> simp [hm]
  · unfold driverStep
    have hv := withVersion_version opts
    rw [hv.1]
    simp [hv.2]

theorem version_head {v b : Str} (h : Version v b) : v.head? = some 'v' := by
  cases h <;> rfl

/-- **C42.** Packages without module, of module `std`, or loaded while indexing the standard library belong to
`github.com/golang/go/src` with the configured Go version, and lose a `std/` prefix. -/
theorem C42_standard_library (ho : ValidOrder g order) (hp : PathsOnce opts pkgs) (hd : opts.driverSet = false)
    (h : loadPackages env opts (some (g, pkgs)) order fuel = some (some l)) {k : Str} {i : Nat} (hk : l.st.all.get k = some (.loaded i))
    (hs : (pkgs i).module = none ∨ (∃ m, (pkgs i).module = some m ∧ m.path = go!"std") ∨ opts.stdlib = true)
    (hg : opts.goVersion ≠ []) (hg' : opts.goVersion.head? ≠ some 'v') :
    (l.st.pkgs i).path = k ∧ ((pkgs i).path = go!"std/" ++ k ∨ (pkgs i).path = k ∧ ¬ go!"std/" <+: k) ∧
    ∃ m, (l.st.pkgs i).module = some m ∧ m.path = go!"github.com/golang/go/src" ∧ m.version = opts.goVersion := by
  have hN := load_invN ho hp h
  have hn := hN.kept k i hk
  have hkey := hN.key k i hk
  obtain ⟨-, -, e1, e2, e3⟩ := withVersion_rest opts
  have hstd : (isStandardLib (pkgs i) || (withVersion opts).stdlib) = true := by
    rw [e3]
    unfold isStandardLib
    rcases hs with hs | ⟨m, hs, hm⟩ | hs
    · simp [hs]
    · simp [hs, hm]
    · simp [hs]
  rw [normalize_standard (by rw [e1]; exact hd) hstd] at hn
  simp only [Option.some.injEq] at hn
  rw [← hn] at hkey ⊢
  refine ⟨hkey, ?_, _, rfl, ?_, ?_⟩
  · rcases trimPrefix_std (pkgs i).path with ⟨h1, h2⟩ | ⟨h1, h2⟩
    · left; rw [← hkey]; exact h2
    · right
      have : (pkgs i).path = k := by rw [← hkey]; exact h2.symm
      exact ⟨this, by rw [← this]; exact h1⟩
  · unfold versionStep; rw [if_neg (by rw [e2]; exact hg)]
  · rw [versionStep_nonempty (by rw [e2]; exact hg), e2]
    refine reduce_other (fun b hb => ?_) (fun rev hr => ?_)
    · exact absurd (version_head hb) hg'
    · obtain ⟨⟨b, hb⟩, -⟩ := hr
      exact absurd (version_head hb) hg'

/-- **C43.** The set of all packages is closed under imports: whatever a kept package imports is represented under its path. -/
theorem C43_closed_under_imports (ho : ValidOrder g order)
    (h : loadPackages env opts (some (g, pkgs)) order fuel = some (some l)) {k : Str} {i j : Nat} (hk : l.st.all.get k = some (.loaded i))
    (hj : j ∈ g.imports i) : ∃ x, l.st.all.get (l.st.pkgs j).path = some x := by
  obtain ⟨hI, -⟩ := load_inv ho h
  rcases hI.keptImports k i hk j hj with h | h
  · exact GoMap.mem_keys.1 (hI.metKeys j h)
  · simp at h

/-- **C43.** Every package matched by the patterns is represented. -/
theorem C43_roots_represented (ho : ValidOrder g order) (hp : PathsFixed opts pkgs)
    (h : loadPackages env opts (some (g, pkgs)) order fuel = some (some l)) {i : Nat} (hi : i ∈ g.roots) :
    ∃ x y, l.project.get (pkgs i).path = some (some x) ∧ l.st.all.get (pkgs i).path = some y := by
  obtain ⟨v, hv⟩ := GoMap.mem_keys.1 (((load_latest ho hp h).keys _).2 ⟨i, hi, rfl⟩)
  obtain ⟨x, y, rfl, hy, -⟩ := (load_latest ho hp h).value _ v hv
  exact ⟨x, y, hv, hy⟩

/-- **C43.** Every represented package other than `builtin` is reachable from the matched ones, and is represented under its own path. -/
theorem C43_only_reachable (ho : ValidOrder g order)
    (h : loadPackages env opts (some (g, pkgs)) order fuel = some (some l)) {k : Str} {x : Kept} (hk : l.st.all.get k = some x) :
    (x = .builtin ∧ k = go!"builtin") ∨ ∃ i, x = .loaded i ∧ Reachable g i ∧ (PathsOnce opts pkgs → (l.st.pkgs i).path = k) := by
  obtain ⟨hI, -⟩ := load_inv ho h
  cases x with
  | builtin => exact .inl ⟨rfl, hI.builtinOnly k hk⟩
  | loaded i => exact .inr ⟨i, rfl, hI.reach i (.inl (hI.keptMet k i hk)), fun hp => (load_invN ho hp h).key k i hk⟩

/-- **C44** (without `std/` prefixes). Among all variants of a path that were met, the kept one is the first of those with the most
files. -/
theorem C44_largest_variant_wins_partial (ho : ValidOrder g order) (hp : NoStdPrefix pkgs)
    (h : loadPackages env opts (some (g, pkgs)) order fuel = some (some l)) {k : Str} {i : Nat} (hk : l.st.all.get k = some (.loaded i)) :
    (pkgs i).path = k ∧ ∃ before after, l.st.met = before ++ i :: after ∧
      (∀ j ∈ before, (pkgs j).path = k → g.files j < g.files i) ∧ (∀ j ∈ after, (pkgs j).path = k → g.files j ≤ g.files i) := by
  have hC := load_invC ho (.inr hp) h
  exact ⟨hC.key k i hk, hC.first k i hk⟩

theorem met_mono {st st' : St} {pending : List Nat} (h : collect env opts g order fuel st pending = some (some st')) {i : Nat} (hi : i ∈ st.met) :
    i ∈ st'.met := by
  refine collect_inv (g := g) (I := fun st _ => i ∈ st.met) ?_ ?_ h hi
  · intro st j rest h _; exact List.mem_append_left _ h
  · intro st j rest p n h _ _; exact List.mem_append_left _ h

theorem roots_met {roots : List Nat} {st st' : St} {project project' : GoMap (Option Kept)}
    (h : collectRoots env opts g order fuel st project roots = some (some (st', project'))) :
    (∀ i ∈ st.met, i ∈ st'.met) ∧ ∀ i ∈ roots, i ∈ st'.met := by
  induction roots generalizing st project with
  | nil => simp only [collectRoots, Option.some.injEq, Prod.mk.injEq] at h; obtain ⟨rfl, rfl⟩ := h; simp
  | cons i rest ih =>
    rw [collectRoots] at h
    cases hc : collect env opts g order fuel st [i] with
    | none => simp [hc] at h
    | some o =>
      cases o with
      | none => simp [hc] at h
      | some st₁ =>
        rw [hc] at h
        obtain ⟨h1, h2⟩ := ih h
        refine ⟨fun j hj => h1 j (met_mono hc hj), ?_⟩
        intro j hj
        rcases List.mem_cons.1 hj with rfl | hj
        · exact h1 _ (met_of_collect hc)
        · exact h2 j hj

/-- **C44.** Every package matched by the patterns, and every import of a kept package, was met. -/
theorem C44_all_variants_met (ho : ValidOrder g order)
    (h : loadPackages env opts (some (g, pkgs)) order fuel = some (some l)) :
    (∀ i ∈ g.roots, i ∈ l.st.met) ∧ ∀ k i j, l.st.all.get k = some (.loaded i) → j ∈ g.imports i → j ∈ l.st.met := by
  obtain ⟨hI, -⟩ := load_inv ho h
  refine ⟨?_, ?_⟩
  · obtain ⟨g', pkgs', e, h⟩ := load_split h
    simp only [Option.some.injEq, Prod.mk.injEq] at e
    obtain ⟨rfl, rfl⟩ := e
    exact (roots_met h).2
  · intro k i j hk hj
    rcases hI.keptImports k i hk j hj with h | h
    · exact h
    · simp at h

theorem load_of_roots {st : St} {project : GoMap (Option Kept)}
    (h : collectRoots env (withVersion opts) g order fuel (initial pkgs) [] g.roots = some (some (st, project))) :
    loadPackages env opts (some (g, pkgs)) order fuel = some (some ⟨st, project⟩) := by
  unfold loadPackages
  show (match collectRoots env (withVersion opts) g order fuel (initial pkgs) [] g.roots with
    | none => none
    | some none => some none
    | some (some (st, project)) => some (some (Loaded.mk st project))) = _
  rw [h]

/-- The options with which the standard library is indexed. -/
def stdOpts (opts : Opts) : Opts := { opts with driverSet := false, stdlib := true }

/-- **C44 fails with `std/` prefixes**: when the standard library is indexed and its packages have paths `std/…`, the last variant
met is kept, also if it has fewer files. -/
theorem C44_std_last_variant_wins (env : Env) (opts : Opts) (path : Str) (m₀ m₁ : Option ModInfo) (n₀ n₁ : Nat)
    (hp : go!"std/" ++ path ≠ go!"builtin") :
    ∃ l, loadPackages env (stdOpts opts) (some (⟨fun i => if i = 0 then n₀ else n₁, fun _ => [], [0, 1]⟩,
        fun i => ⟨go!"std/" ++ path, if i = 0 then m₀ else m₁⟩)) (fun _ _ => []) 1 = some (some l) ∧
      l.st.all.get path = some (.loaded 1) ∧ l.project.get path = some (some (.loaded 1)) := by
  have htrim : Str.trimPrefix (go!"std/" ++ path) go!"std/" = path := by
    unfold Str.trimPrefix Str.hasPrefix
    rw [if_pos (by simp)]; simp
  have hne : go!"std/" ++ path ≠ path := by
    intro e
    have := congrArg List.length e
    simp at this
    omega
  have hn : ∀ m, normalize env (withVersion (stdOpts opts)) ⟨go!"std/" ++ path, m⟩ = some (standardResult env (withVersion (stdOpts opts)) (go!"std/" ++ path)) := by
    intro m
    obtain ⟨-, -, e1, -, e2⟩ := withVersion_rest (stdOpts opts)
    exact normalize_standard (by rw [e1]; rfl) (by rw [e2]; simp [stdOpts])
  have hpath : (standardResult env (withVersion (stdOpts opts)) (go!"std/" ++ path)).path = path := htrim
  obtain ⟨q, hq⟩ : ∃ q, q = standardResult env (withVersion (stdOpts opts)) (go!"std/" ++ path) := ⟨_, rfl⟩
  rw [← hq] at hpath
  have hn : ∀ m, normalize env (withVersion (stdOpts opts)) ⟨go!"std/" ++ path, m⟩ = some q := by rw [hq]; exact hn
  obtain ⟨G, hG⟩ : ∃ G : Graph, G = ⟨fun i => if i = 0 then n₀ else n₁, fun _ => [], [0, 1]⟩ := ⟨_, rfl⟩
  rw [← hG]
  obtain ⟨P, hP⟩ : ∃ P : Nat → PkgSt, P = fun i => ⟨go!"std/" ++ path, if i = 0 then m₀ else m₁⟩ := ⟨_, rfl⟩
  rw [← hP]
  have hPi : ∀ i, ∃ m, P i = ⟨go!"std/" ++ path, m⟩ := fun i => ⟨_, by rw [hP]⟩
  have step : ∀ (st : St) (i : Nat), (∃ m, st.pkgs i = ⟨go!"std/" ++ path, m⟩) → st.all.get (go!"std/" ++ path) = none →
      collect env (withVersion (stdOpts opts)) G (fun _ _ => []) 1 st [i] = some (some (st.keep i q)) := by
    rintro st i ⟨m, hi⟩ hk
    rw [collect]
    simp only
    rw [if_neg, hi, hn]
    · simp only [List.append_nil, collect, Option.some.injEq, hpath]; simp [St.keep, hpath]
    · simp only [alreadyKept, hi, hk]; simp
  have h1 := step (initial P) 0 (hPi 0) (by
    simp only [initial, GoMap.get, List.lookup_cons]
    rw [show ((go!"std/" ++ path) == go!"builtin") = false from by simpa using hp]
    rfl)
  have h2 := step ((initial P).keep 0 q) 1 (hPi 1) (by
    rw [get_keep, if_neg (by rw [hpath]; exact hne)]
    simp only [initial, GoMap.get, List.lookup_cons]
    rw [show ((go!"std/" ++ path) == go!"builtin") = false from by simpa using hp]
    rfl)
  have hroots : collectRoots env (withVersion (stdOpts opts)) G (fun _ _ => []) 1 (initial P) [] G.roots =
      some (some (((initial P).keep 0 q).keep 1 q,
        (GoMap.set (GoMap.set [] path (some (.loaded 0))) path (some (.loaded 1)) : GoMap (Option Kept)))) := by
    have hr : G.roots = [0, 1] := by rw [hG]
    have p0 : (((initial P).keep 0 q).pkgs 0).path = path := by rw [← hpath]; rfl
    have p1 : ((((initial P).keep 0 q).keep 1 q).pkgs 1).path = path := by rw [← hpath]; rfl
    have g0 : ((initial P).keep 0 q).all.get path = some (.loaded 0) := by rw [get_keep, if_pos hpath.symm]
    have g1 : (((initial P).keep 0 q).keep 1 q).all.get path = some (.loaded 1) := by rw [get_keep, if_pos hpath.symm]
    rw [hr, collectRoots, h1]
    simp only
    rw [p0, g0, collectRoots, h2]
    simp only
    rw [p1, g1, collectRoots]
  refine ⟨⟨((initial P).keep 0 q).keep 1 q, _⟩, load_of_roots hroots, ?_, ?_⟩
  · show (((initial P).keep 0 q).keep 1 q).all.get path = _
    rw [get_keep, if_pos hpath.symm]
  · show GoMap.get (GoMap.set _ _ _) path = _
    rw [GoMap.get_set, if_pos rfl]

end Verif
