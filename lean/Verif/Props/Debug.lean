import Verif.Spec.Debug
import Verif.Props.Identity
/-! # C106: what loading tells -/
namespace Verif
open Loader Loader.Spec Semver.Spec Spec Debug

section
variable {env : Loader.Env} {fails : Str → Bool} {opts : Loader.Opts}

theorem pseudo_has_rev {v : Str} (h : Semver.isPseudoVersion v = true) : ∃ r, Semver.pseudoVersionRev v = some r := by
  rcases version_cases v with ⟨rev, hr⟩ | ⟨hp, _⟩ | ⟨hp, _⟩
  · exact ⟨rev, Semver.rev_of hr⟩
  all_goals
    exfalso
    obtain ⟨r, hr⟩ := Semver.isPseudo_iff.1 h
    exact hp r hr

/-- What is told of a version. -/
theorem versionDebug_eq {b : ModBase} (hd : b.dir = [] ∨ Absolute b.dir) (hr : opts.moduleRoot = [] ∨ Absolute opts.moduleRoot) (n : Note) :
    n ∈ versionDebug env (withVersion opts) b ↔
      b.version = [] ∧ ¬ BelongsToProject env opts b.dir b.path ∧ n = .versionUnknown b.path opts.modulePath := by
  have hw := withVersion_rest opts
  have hb : (Filepath.isNestedDir b.dir (withVersion opts).moduleRoot || hasSameRepoRoot env b.path (withVersion opts).modulePath) = true ↔
      BelongsToProject env opts b.dir b.path := by
    rw [Bool.or_eq_true, same_root_iff, hw.1, hw.2.1, nested_iff hd hr]; rfl
  unfold versionDebug
  by_cases hv : b.version = []
  · rw [if_pos hv]
    by_cases hB : BelongsToProject env opts b.dir b.path
    · rw [if_pos (hb.2 hB)]
      simp [hB]
    · rw [if_neg (fun h => hB (hb.1 h)), hw.2.1]
      simp [hB, hv]
  · rw [if_neg hv]
    have : ∀ x, x ∉ (if Semver.isPseudoVersion b.version = true then
        match Semver.pseudoVersionRev b.version with
        | none => [Note.revisionUnknown b.path b.version]
        | some _ => []
      else []) := by
      intro x hx
      split at hx
      · rename_i hp
        obtain ⟨r, hr⟩ := pseudo_has_rev hp
        rw [hr] at hx
        simp at hx
      · simp at hx
    constructor
    · intro h; exact absurd h (this n)
    · rintro ⟨h, _⟩; exact absurd h hv

/-- The result of reading the go.mod file of a local module. -/
theorem localStep_comes {m : ModInfo} {b : ModBase} (hl : localStep env (standsFor opts m) = some b) :
    b.dir = (effective m).dir ∧ ComesWithVersion env (standsFor opts m) b.version ∧ ComesWithPath env (effective m) b.path := by
  have hr := standsFor_effective opts m
  have hd := (localStep_goMod hl).2
  refine ⟨hd.trans hr.2.1, ?_⟩
  unfold localStep at hl
  split at hl
  · rename_i hc
    simp only [Bool.and_eq_true, hasPrefix_iff, decide_eq_true_eq] at hc
    have hloc : Loader.Spec.IsLocal (standsFor opts m) := hc
    split at hl
    · rename_i hu
      simp only [Option.some.injEq] at hl; subst hl
      exact ⟨.delivered fun _ => .inl hu, comesWithPath_congr hr.1 hr.2.2 (.delivered fun _ => hu)⟩
    · simp at hl
    · rename_i path version hu
      simp only [Option.some.injEq] at hl; subst hl
      refine ⟨?_, comesWithPath_congr hr.1 hr.2.2 (.goMod hloc hu)⟩
      simp only
      split
      · rename_i hv; exact .goMod hloc hu hv
      · rename_i hv
        exact .delivered fun _ => .inr ⟨path, by rw [hu]; simpa using hv⟩
  · rename_i hc
    simp only [Option.some.injEq] at hl; subst hl
    have hloc : ¬ Loader.Spec.IsLocal (standsFor opts m) := by
      intro h; apply hc; simp [hasPrefix_iff, h.1, h.2]
    exact ⟨.delivered fun h => absurd h hloc, comesWithPath_congr hr.1 hr.2.2 (.delivered fun h => absurd h hloc)⟩

theorem localStep_none {m : ModBase} (hl : localStep env m = none) : Loader.Spec.IsLocal m ∧ env.readMod m.goMod = .broken := by
  unfold localStep at hl
  split at hl
  · rename_i hc
    simp only [Bool.and_eq_true, hasPrefix_iff, decide_eq_true_eq] at hc
    split at hl
    · simp at hl
    · rename_i h; exact ⟨hc, h⟩
    · simp at hl
  · simp at hl

theorem comes_not_broken {e : ModBase} {q : Str} (h : ComesWithPath env e q) (hl : Loader.Spec.IsLocal e) : env.readMod e.goMod ≠ .broken := by
  cases h with
  | delivered h => rw [h hl]; simp
  | goMod _ h => rw [h]; simp

theorem isLocal_standsFor {m : ModInfo} : Loader.Spec.IsLocal (standsFor opts m) ↔ Loader.Spec.IsLocal (effective m) := by
  have hr := standsFor_effective opts m
  unfold Loader.Spec.IsLocal
  rw [hr.1, hr.2.2]

theorem mem_localDebug {m : ModInfo} {n : Note} : n ∈ localDebug env fails (standsFor opts m) ↔ Loader.Spec.IsLocal (effective m) ∧
    ((env.readMod (effective m).goMod = .unreadable ∧ n = .goModUnreadable (effective m).goMod) ∨
     (env.readMod (effective m).goMod = .broken ∧ fails (effective m).goMod = true ∧ n = .goModUnparsable (effective m).goMod) ∨
     ∃ q v, env.readMod (effective m).goMod = .parsed q v ∧
      (n = .pathReplaced (effective m).path q ∨ v ≠ [] ∧ n = .versionReplaced (standsFor opts m).version v)) := by
  have hr := standsFor_effective opts m
  unfold localDebug
  rw [hr.1, hr.2.2]
  split
  · rename_i hc
    simp only [Bool.and_eq_true, hasPrefix_iff, decide_eq_true_eq] at hc
    have hloc : Loader.Spec.IsLocal (effective m) := hc
    simp only [hloc, true_and]
    cases hu : env.readMod (effective m).goMod with
    | unreadable => simp
    | broken => by_cases hf : fails (effective m).goMod = true <;> simp [hf]
    | parsed q v =>
      have hex : ∀ P : Str → Str → Prop, (∃ q' v', ModRead.parsed q v = ModRead.parsed q' v' ∧ P q' v') ↔ P q v := fun P =>
        ⟨fun ⟨q', v', e, h⟩ => by simp only [ModRead.parsed.injEq] at e; obtain ⟨rfl, rfl⟩ := e; exact h, fun h => ⟨q, v, rfl, h⟩⟩
      simp only [reduceCtorEq, false_and, false_or]
      rw [hex fun q v => n = .pathReplaced (effective m).path q ∨ v ≠ [] ∧ n = .versionReplaced (standsFor opts m).version v]
      by_cases hv : v = [] <;> simp [hv]
  · rename_i hc
    have hloc : ¬ Loader.Spec.IsLocal (effective m) := by
      intro h; apply hc; simp [hasPrefix_iff, h.1, h.2]
    simp [hloc]

theorem localDebug_nodup (m : ModBase) : (localDebug env fails m).Nodup := by
  unfold localDebug
  split
  · split
    · simp
    · split <;> simp
    · split <;> simp
  · simp

theorem debug_driver {p : PkgSt} (hd : opts.driverSet = true) : normalizeDebug env fails opts p = [] := by
  unfold normalizeDebug; rw [if_pos hd]

theorem debug_standard {p : PkgSt} (hd : opts.driverSet = false) (hs : (isStandardLib p || opts.stdlib) = true) :
    normalizeDebug env fails opts p = versionDebug env opts ⟨go!"github.com/golang/go/src", opts.goVersion, [], []⟩ := by
  unfold normalizeDebug standardStep
  rw [if_neg (by simp [hd]), if_pos hs]
  rfl

theorem debug_module {p : PkgSt} {m : ModInfo} (h : OfModule opts p m) : normalizeDebug env fails (withVersion opts) p =
    localDebug env fails (standsFor opts m) ++
      match localStep env (standsFor opts m) with
      | none => []
      | some b => versionDebug env (withVersion opts) (pathStep b) := by
  have hw := withVersion_rest opts
  obtain ⟨h1, h2, h3⟩ := h
  have hns : (isStandardLib p || (withVersion opts).stdlib) ≠ true := by rw [hw.2.2.2.2]; exact fun h => h2 (standard_iff.2 h)
  unfold normalizeDebug standardStep
  rw [if_neg (by rw [hw.2.2.1]; simp [h1]), if_neg hns]
  dsimp only
  rw [h3]
  simp only [Option.getD_some]
  rw [standsFor_eq]
  rfl

theorem pathStep_path (b : ModBase) : (pathStep b).path = orDot b.path := by
  unfold pathStep orDot; split <;> simp_all

/-- **C106** (what is told of a package): of every package, exactly what there is to tell: that the go.mod file of a local module cannot be read or parsed, or
which path and version it gives; and that no version is known.  Each is told once. -/
theorem C106_told (env : Loader.Env) (fails : Str → Bool) (opts : Loader.Opts) (p : PkgSt) (hd : DirOk opts p)
    (hr : opts.moduleRoot = [] ∨ Absolute opts.moduleRoot) :
    (normalizeDebug env fails (withVersion opts) p).Nodup ∧ ∀ n, n ∈ normalizeDebug env fails (withVersion opts) p ↔ Told env fails opts p n := by
  have hw := withVersion_rest opts
  by_cases hdr : opts.driverSet = true
  · rw [debug_driver (by rw [hw.2.2.1]; exact hdr)]
    refine ⟨List.nodup_nil, fun n => ⟨fun h => by simp at h, fun h => ?_⟩⟩
    cases h <;> rename_i h <;> simp_all [OfModule]
  · have hdr' : opts.driverSet = false := by simpa using hdr
    have hvn : ∀ b : ModBase, (versionDebug env (withVersion opts) b).Nodup := by
      intro b
      unfold versionDebug
      split
      · split <;> simp
      · split
        · split <;> simp
        · simp
    by_cases hs : Standard opts p
    · rw [debug_standard (by rw [hw.2.2.1]; exact hdr') (by rw [hw.2.2.2.2]; exact standard_iff.1 hs)]
      refine ⟨hvn _, fun n => ?_⟩
      rw [versionDebug_eq (.inl rfl) hr, hw.2.2.2.1]
      constructor
      · rintro ⟨h1, h2, rfl⟩; exact .library hdr' hs h1 h2
      · intro h
        cases h with
        | library _ _ h1 h2 => exact ⟨h1, h2, rfl⟩
        | _ h => exact absurd hs h.2.1
    · cases hm : p.module with
      | none => exact absurd (.inl hm) hs
      | some m =>
        have hof : OfModule opts p m := ⟨hdr', hs, hm⟩
        have huniq : ∀ {m'}, OfModule opts p m' → m' = m := fun h => by
          have := h.2.2; rw [hm] at this; simpa using this.symm
        rw [debug_module hof]
        have hse := standsFor_effective opts m
        cases hl : localStep env (standsFor opts m) with
        | none =>
          obtain ⟨hloc, hb⟩ := localStep_none hl
          rw [isLocal_standsFor] at hloc
          rw [hse.2.2] at hb
          refine ⟨by simpa using localDebug_nodup _, fun n => ?_⟩
          simp only [List.append_nil]
          rw [mem_localDebug]
          constructor
          · rintro ⟨_, ⟨h, _⟩ | ⟨h1, h2, rfl⟩ | ⟨q, v, h, _⟩⟩
            · rw [hb] at h; simp at h
            · exact .unparsable hof hloc h1 h2
            · rw [hb] at h; simp at h
          · intro h
            cases h with
            | unreadable h h1 h2 => obtain rfl := huniq h; rw [hb] at h2; simp at h2
            | unparsable h h1 h2 h3 => obtain rfl := huniq h; exact ⟨h1, .inr (.inl ⟨h2, h3, rfl⟩)⟩
            | path h h1 h2 => obtain rfl := huniq h; rw [hb] at h2; simp at h2
            | version h h1 h2 => obtain rfl := huniq h; rw [hb] at h2; simp at h2
            | unknown h h1 => obtain rfl := huniq h; exact absurd hb (comes_not_broken h1 hloc)
            | library _ h => exact absurd h hs
        | some b =>
          obtain ⟨hdir, hcv, hcp⟩ := localStep_comes hl
          have hps := pathStep_same b
          have hdo : (pathStep b).dir = [] ∨ Absolute (pathStep b).dir := by
            rw [hps.2.2.1, hdir, ← hse.2.1]; exact hd m hm
          have hve := fun n => versionDebug_eq (env := env) (opts := opts) hdo hr n
          refine ⟨?_, fun n => ?_⟩
          · dsimp only
            rw [List.nodup_append]
            refine ⟨localDebug_nodup _, hvn _, fun x hx y hy => ?_⟩
            obtain ⟨_, _, rfl⟩ := (hve y).1 hy
            rintro rfl
            rw [mem_localDebug] at hx
            simp at hx
          · rw [List.mem_append, mem_localDebug]
            dsimp only
            rw [hve, hps.1, hps.2.2.1, hdir, pathStep_path]
            constructor
            · rintro (⟨hloc, ⟨h, rfl⟩ | ⟨h1, h2, rfl⟩ | ⟨q, v, h, rfl | ⟨hv, rfl⟩⟩⟩ | ⟨h1, h2, rfl⟩)
              · exact .unreadable hof hloc h
              · exact .unparsable hof hloc h1 h2
              · exact .path hof hloc h
              · exact .version hof hloc h hv
              · exact .unknown hof hcp (by rw [← h1]; exact hcv) h2
            · intro h
              cases h with
              | unreadable h h1 h2 => obtain rfl := huniq h; exact .inl ⟨h1, .inl ⟨h2, rfl⟩⟩
              | unparsable h h1 h2 h3 => obtain rfl := huniq h; exact .inl ⟨h1, .inr (.inl ⟨h2, h3, rfl⟩)⟩
              | path h h1 h2 => obtain rfl := huniq h; exact .inl ⟨h1, .inr (.inr ⟨_, _, h2, .inl rfl⟩)⟩
              | version h h1 h2 h3 => obtain rfl := huniq h; exact .inl ⟨h1, .inr (.inr ⟨_, _, h2, .inr ⟨h3, rfl⟩⟩)⟩
              | unknown h h1 h2 h3 =>
                obtain rfl := huniq h
                obtain rfl := comes_path_unique hcp h1
                exact .inr ⟨comes_unique hcv h2, h3, rfl⟩
              | library _ h => exact absurd h hs

/-- **C106** (no news is good news): of a package of an ordinary module of which nothing is told, the identity is what the go command reported: the path of the
module (or its replacement), and the version, or without one that of the project if the module is a replacement or belongs to the repository of the project. -/
theorem C106_silent_identity (env : Loader.Env) (fails : Str → Bool) (opts : Loader.Opts) (p : PkgSt) (m : ModInfo) (hof : OfModule opts p m)
    (hsilent : ∀ n, ¬ Told env fails opts p n) (path v : Str) (h : Identity env opts p path v) :
    path = orDot (effective m).path ∧ ExpectedVersion env opts m v := by
  cases h with
  | driver h => rw [hof.1] at h; simp at h
  | standard _ h => exact absurd h hof.2.1
  | @module m' q w _ _ _ hm hp hw hv =>
    have : m' = m := by have := hof.2.2; rw [hm] at this; simpa using this
    subst this
    have hse := standsFor_effective opts m'
    have hp' := comesWithPath_congr hse.1 hse.2.2 hp
    have e1 : q = (effective m').path := by
      cases hp' with
      | delivered => rfl
      | goMod h1 h2 => exact absurd (.path hof h1 h2) (hsilent _)
    subst e1
    have e2 : w = (standsFor opts m').version := by
      cases hw with
      | delivered => rfl
      | goMod h1 h2 h3 => exact absurd (.version hof (isLocal_standsFor.1 h1) (by rw [← hse.2.2]; exact h2) h3) (hsilent _)
    subst e2
    refine ⟨rfl, ?_⟩
    have hpv := (withVersion_version opts).2
    generalize hsv : (standsFor opts m').version = w at hw hv
    unfold ExpectedVersion
    cases hrep : m'.replace with
    | none =>
      have : (standsFor opts m').version = (effective m').version := by simp [standsFor, effective, hrep]
      rw [← this, hsv]
      cases hv with
      | versioned h1 h2 => exact .inl ⟨h1, h2⟩
      | ofProject h1 => exact .inr (.inr ⟨rfl, rfl, by rw [← hse.2.1]; exact h1, rfl⟩)
      | foreign h1 =>
        rw [hse.2.1] at h1
        exact absurd (.unknown hof hp' hw h1) (hsilent _)
    | some r =>
      have he : effective m' = r := by simp [effective, hrep]
      rw [he]
      by_cases hrv : r.version = []
      · have : w = projectVersion opts := by rw [← hsv]; simp [standsFor, hrep, hrv]
        refine .inr (.inl ⟨hrv, rfl, ?_⟩)
        rw [← this]
        cases hv with
        | versioned _ h2 => exact h2
        | ofProject => exact absurd this.symm hpv
        | foreign => exact absurd this.symm hpv
      · have : w = r.version := by rw [← hsv]; simp [standsFor, hrep, hrv]
        refine .inl ⟨hrv, ?_⟩
        rw [← this]
        cases hv with
        | versioned _ h2 => exact h2
        | ofProject => exact absurd this.symm hrv
        | foreign => exact absurd this.symm hrv

end

end Verif
