import Verif.Props.Normalize
/-! # C81: the identity of every loaded package -/
namespace Verif
open Loader Loader.Spec Semver.Spec Spec

theorem reportedAs_iff {v r : Str} : ReportedAs v r ↔ r = reduceVersion v := by
  constructor
  · intro h
    cases h with
    | pseudo h => exact (reduce_pseudo h).symm
    | build h1 h2 h3 => exact (reduce_build h1 h2 rfl h3).symm
    | plain h1 h2 => exact (reduce_other h1 h2).symm
  · rintro rfl
    rcases version_cases v with ⟨rev, hr⟩ | ⟨hp, b, x, hv, hb, e⟩ | ⟨hp, hv⟩
    · rw [reduce_pseudo hr]; exact .pseudo hr
    · rw [reduce_build hv hb e hp]; subst e; exact .build hv hb hp
    · rw [reduce_other hv hp]; exact .plain hv hp

theorem indexedVersion_iff {env : Loader.Env} {opts : Loader.Opts} {b : ModBase} (hd : b.dir = [] ∨ Absolute b.dir)
    (hr : opts.moduleRoot = [] ∨ Absolute opts.moduleRoot) {v : Str} :
    IndexedVersion env opts b.dir b.path b.version v ↔ v = (versionStep env (withVersion opts) b).version := by
  have hw := withVersion_rest opts
  have hb : (Filepath.isNestedDir b.dir (withVersion opts).moduleRoot || hasSameRepoRoot env b.path (withVersion opts).modulePath) = true ↔
      BelongsToProject env opts b.dir b.path := by
    rw [Bool.or_eq_true, same_root_iff, hw.1, hw.2.1, nested_iff hd hr]; rfl
  constructor
  · intro h
    generalize hv : b.version = w at h
    cases h with
    | versioned h1 h2 => rw [versionStep_nonempty (by rw [hv]; exact h1), hv]; exact reportedAs_iff.1 h2
    | ofProject h1 => unfold versionStep; rw [if_pos hv, if_pos (hb.2 h1)]; exact (withVersion_version opts).1.symm
    | foreign h1 => unfold versionStep; rw [if_pos hv, if_neg (fun h => h1 (hb.1 h))]
  · rintro rfl
    by_cases hv : b.version = []
    · by_cases hB : BelongsToProject env opts b.dir b.path
      · have : (versionStep env (withVersion opts) b).version = projectVersion opts := by
          unfold versionStep; rw [if_pos hv, if_pos (hb.2 hB)]; exact (withVersion_version opts).1
        rw [this, hv]; exact .ofProject hB
      · have : (versionStep env (withVersion opts) b).version = go!"." := by
          unfold versionStep; rw [if_pos hv, if_neg (fun h => hB (hb.1 h))]
        rw [this, hv]; exact .foreign hB
    · rw [versionStep_nonempty hv]; exact .versioned hv (reportedAs_iff.2 rfl)

theorem standsFor_eq (opts : Loader.Opts) (m : ModInfo) : replaceStep (withVersion opts) m = standsFor opts m := by
  unfold replaceStep standsFor
  rw [(withVersion_version opts).1]
  cases m.replace <;> rfl

theorem standsFor_effective (opts : Loader.Opts) (m : ModInfo) : (standsFor opts m).path = (effective m).path ∧
    (standsFor opts m).dir = (effective m).dir ∧ (standsFor opts m).goMod = (effective m).goMod := by
  unfold standsFor effective
  cases m.replace with
  | none => exact ⟨rfl, rfl, rfl⟩
  | some r => simp only [Option.getD_some]; split <;> exact ⟨rfl, rfl, rfl⟩

theorem standard_iff {opts : Loader.Opts} {p : PkgSt} : Standard opts p ↔ (isStandardLib p || opts.stdlib) = true := by
  unfold Standard isStandardLib
  cases p.module with
  | none => simp
  | some m => simp

theorem comesWithPath_congr {env : Loader.Env} {e e' : ModBase} (h1 : e.path = e'.path) (h2 : e.goMod = e'.goMod) {q : Str}
    (h : ComesWithPath env e q) : ComesWithPath env e' q := by
  have hl : IsLocal e ↔ IsLocal e' := by unfold IsLocal; rw [h1, h2]
  cases h with
  | delivered h => rw [h1]; exact .delivered fun hl' => by rw [← h2]; exact h (hl.2 hl')
  | goMod h3 h4 => exact .goMod (hl.1 h3) (by rw [← h2]; exact h4)

/-- A normalised package has the identity that the specification gives. -/
theorem identity_of_normalize {env : Loader.Env} {opts : Loader.Opts} {p q : PkgSt} (hd : DirOk opts p)
    (hr : opts.moduleRoot = [] ∨ Absolute opts.moduleRoot) (h : normalize env (withVersion opts) p = some q) :
    ∃ m, q.module = some m ∧ Identity env opts p m.path m.version := by
  have hw := withVersion_rest opts
  by_cases hdr : opts.driverSet = true
  · rw [normalize_driver (by rw [hw.2.2.1]; exact hdr)] at h
    simp only [Option.some.injEq] at h
    subst h
    refine ⟨_, rfl, ?_⟩
    have e1 : (driverStep (withVersion opts)).path = orDot opts.modulePath := by
      unfold driverStep orDot; rw [hw.2.1]; by_cases hm : opts.modulePath = [] <;> simp [hm]
    have e2 : (driverStep (withVersion opts)).version = projectVersion opts := by
      unfold driverStep; rw [(withVersion_version opts).1]; simp [(withVersion_version opts).2]
    rw [e1, e2]
    exact .driver hdr
  · have hdr' : opts.driverSet = false := by simpa using hdr
    by_cases hs : Standard opts p
    · have hs' := standard_iff.1 hs
      rw [normalize_standard (by rw [hw.2.2.1]; exact hdr') (by rw [hw.2.2.2.2]; exact hs')] at h
      simp only [Option.some.injEq] at h
      subst h
      refine ⟨_, rfl, ?_⟩
      have e1 := (versionStep_same (env := env) (opts := withVersion opts) ⟨go!"github.com/golang/go/src", (withVersion opts).goVersion, [], []⟩).1
      rw [e1]
      refine .standard hdr' hs ?_
      have := (indexedVersion_iff (env := env) (opts := opts) (b := ⟨go!"github.com/golang/go/src", opts.goVersion, [], []⟩) (.inl rfl) hr).2 rfl
      rw [hw.2.2.2.1]
      exact this
    · have hns := fun h => hs (standard_iff.2 h)
      cases hm : p.module with
      | none => exact absurd (.inl hm) hs
      | some m =>
        have hu : Userland (withVersion opts) p m := by
          refine ⟨by rw [hw.2.2.1]; exact hdr', ?_, hm, fun e => hs (.inr (.inl ⟨m, hm, e⟩))⟩
          rw [hw.2.2.2.2]
          cases hc : opts.stdlib with
          | false => rfl
          | true => exact absurd (.inr (.inr hc)) hs
        obtain ⟨-, m', v', path, h1, -, hdir, hgo, h2, h3, h4, h5⟩ := normalize_userland hu h
        refine ⟨m', h1, ?_⟩
        obtain ⟨s1, s2, s3⟩ := standsFor_effective opts m
        rw [standsFor_eq] at h2
        have hp : m'.path = orDot path := h4
        rw [hp]
        refine .module hdr' hs hm (comesWithPath_congr s1.symm s3.symm h3) h2 ?_
        have := (indexedVersion_iff (env := env) (opts := opts)
          (b := ⟨m'.path, v', (effective m).dir, (effective m).goMod⟩) (by rw [← s2]; exact hd m hm) hr (v := m'.version)).2 h5
        simp only [hp] at this
        rw [s2]
        exact this

theorem indexedVersion_unique {env : Loader.Env} {opts : Loader.Opts} {dir path w v v' : Str} (h : IndexedVersion env opts dir path w v)
    (h' : IndexedVersion env opts dir path w v') : v = v' := by
  cases h with
  | versioned h1 h2 =>
    cases h' with
    | versioned _ h3 => rw [reportedAs_iff.1 h2, reportedAs_iff.1 h3]
    | ofProject => exact absurd rfl h1
    | foreign => exact absurd rfl h1
  | ofProject h1 =>
    cases h' with
    | versioned h2 => exact absurd rfl h2
    | ofProject => rfl
    | foreign h2 => exact absurd h1 h2
  | foreign h1 =>
    cases h' with
    | versioned h2 => exact absurd rfl h2
    | ofProject h2 => exact absurd h2 h1
    | foreign => rfl

/-- **C81.** The specification of the identity is unambiguous. -/
theorem C81_identity_unique {env : Loader.Env} {opts : Loader.Opts} {p : PkgSt} {a b a' b' : Str} (h : Identity env opts p a b)
    (h' : Identity env opts p a' b') : a = a' ∧ b = b' := by
  cases h with
  | driver h1 =>
    cases h' with
    | driver => exact ⟨rfl, rfl⟩
    | standard h2 => rw [h1] at h2; simp at h2
    | module h2 => rw [h1] at h2; simp at h2
  | standard h1 h2 h3 =>
    cases h' with
    | driver h4 => rw [h1] at h4; simp at h4
    | standard _ _ h4 => exact ⟨rfl, indexedVersion_unique h3 h4⟩
    | module _ h4 => exact absurd h2 h4
  | module h1 h2 h3 h4 h5 h6 =>
    cases h' with
    | driver h7 => rw [h1] at h7; simp at h7
    | standard _ h7 => exact absurd h7 h2
    | module _ _ h7 h8 h9 h10 =>
      rw [h3] at h7
      simp only [Option.some.injEq] at h7
      subst h7
      have := comes_path_unique h4 h8
      subst this
      have := comes_unique h5 h9
      subst this
      exact ⟨rfl, indexedVersion_unique h6 h10⟩

/-- **C81.** For every load: every package of the result, however it was reached and whatever was met before, has exactly the module path
and version that the specification gives for the package as the go command delivered it. -/
theorem C81_identity {env : Loader.Env} {opts : Loader.Opts} {g : Graph} {pkgs : Nat → PkgSt} {order : Nat → Nat → List Nat} {fuel : Nat}
    {l : Loaded} (ho : ValidOrder g order) (hp : PathsOnce opts pkgs) (h : loadPackages env opts (some (g, pkgs)) order fuel = some (some l))
    (hr : opts.moduleRoot = [] ∨ Absolute opts.moduleRoot) {k : Str} {i : Nat} (hd : DirOk opts (pkgs i))
    (hk : l.st.all.get k = some (.loaded i)) :
    ∃ m, (l.st.pkgs i).module = some m ∧ Identity env opts (pkgs i) m.path m.version :=
  identity_of_normalize hd hr ((load_invN ho hp h).kept k i hk)

end Verif
