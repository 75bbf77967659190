import Verif.Props.Loader
import Verif.Lemmas.Filepath
/-!
# C38, C45-C48: normalising packages, termination, project packages
-/
namespace Verif
open Loader Loader.Spec Semver.Spec Spec

variable {env : Env} {opts : Opts} {g : Graph} {order : Nat → Nat → List Nat} {pkgs : Nat → PkgSt} {fuel : Nat} {l : Loaded}

theorem versionStep_stable (hr : reduceVersion opts.moduleVersion = opts.moduleVersion) (b : ModBase) :
    reduceVersion (versionStep env opts b).version = (versionStep env opts b).version := by
  unfold versionStep
  split
  · split
    · exact hr
    · exact reduce_dot
  · exact reduce_idem _

theorem versionStep_ne (hv : opts.moduleVersion ≠ []) (b : ModBase) : (versionStep env opts b).version ≠ [] := by
  unfold versionStep
  split
  · split
    · exact hv
    · simp
  · rename_i h; exact reduce_ne_nil h

theorem versionStep_same (b : ModBase) : (versionStep env opts b).path = b.path ∧ (versionStep env opts b).goMod = b.goMod ∧
    (versionStep env opts b).dir = b.dir := by
  unfold versionStep
  split
  · split <;> exact ⟨rfl, rfl, rfl⟩
  · exact ⟨rfl, rfl, rfl⟩

theorem pathStep_same (b : ModBase) : (pathStep b).version = b.version ∧ (pathStep b).goMod = b.goMod ∧ (pathStep b).dir = b.dir ∧
    (pathStep b).path ≠ [] ∧ (b.path ≠ [] → (pathStep b).path = b.path) := by
  unfold pathStep
  split
  · rename_i h; exact ⟨rfl, rfl, rfl, by simp, fun h' => absurd h h'⟩
  · rename_i h; exact ⟨rfl, rfl, rfl, h, fun _ => rfl⟩

theorem localStep_goMod {m b : ModBase} (h : localStep env m = some b) : b.goMod = m.goMod ∧ b.dir = m.dir := by
  unfold localStep at h
  split at h
  · split at h
    · simp only [Option.some.injEq] at h; subst h; exact ⟨rfl, rfl⟩
    · simp at h
    · simp only [Option.some.injEq] at h; subst h; exact ⟨rfl, rfl⟩
  · simp only [Option.some.injEq] at h; subst h; exact ⟨rfl, rfl⟩

/-- The last steps of normalising, done again on their own result. -/
theorem steps_again (hv : opts.moduleVersion ≠ []) (hr : reduceVersion opts.moduleVersion = opts.moduleVersion) {m b : ModBase}
    (hm : m.path ≠ []) (h : localStep env m = some b) :
    ∃ b', localStep env (versionStep env opts (pathStep b)) = some b' ∧
      (versionStep env opts (pathStep b')).path = (versionStep env opts (pathStep b)).path ∧
      (versionStep env opts (pathStep b')).version = (versionStep env opts (pathStep b)).version := by
  obtain ⟨B, hB⟩ : ∃ B, B = versionStep env opts (pathStep b) := ⟨_, rfl⟩
  have hBv : B.version ≠ [] := by rw [hB]; exact versionStep_ne hv _
  have hBr : reduceVersion B.version = B.version := by rw [hB]; exact versionStep_stable hr _
  have hBp : B.path = (pathStep b).path := by rw [hB]; exact (versionStep_same _).1
  have hBg : B.goMod = m.goMod := by
    rw [hB, (versionStep_same _).2.1, (pathStep_same _).2.1]; exact (localStep_goMod h).1
  rw [← hB]
  have same : (versionStep env opts (pathStep B)).path = B.path ∧ (versionStep env opts (pathStep B)).version = B.version := by
    refine ⟨?_, ?_⟩
    · rw [(versionStep_same _).1, (pathStep_same B).2.2.2.2]; rw [hBp]; exact (pathStep_same b).2.2.2.1
    · rw [versionStep_nonempty (by rw [(pathStep_same _).1]; exact hBv), (pathStep_same _).1]; exact hBr
  by_cases hl : (Str.hasPrefix B.path go!"." && B.goMod ≠ []) = true
  · unfold localStep at h ⊢
    rw [if_pos hl]
    rw [hBg] at hl ⊢
    split at h
    · cases hu : env.readMod m.goMod with
      | unreadable => exact ⟨_, rfl, same⟩
      | broken => rw [hu] at h; simp at h
      | parsed p v =>
        rw [hu] at h
        simp only [Option.some.injEq] at h
        refine ⟨_, rfl, ?_, ?_⟩
        · rw [(versionStep_same _).1, hBp, ← h]; unfold pathStep; simp only; split <;> rfl
        · by_cases hvv : v = []
          · subst hvv
            simp only [ne_eq, not_true_eq_false, ↓reduceIte]
            rw [versionStep_nonempty (by rw [(pathStep_same _).1]; exact hBv), (pathStep_same _).1]; exact hBr
          · rw [versionStep_nonempty (by rw [(pathStep_same _).1]; simpa [hvv] using hvv), (pathStep_same _).1, hB,
              versionStep_nonempty (by rw [(pathStep_same _).1, ← h]; simpa [hvv] using hvv), (pathStep_same _).1, ← h]
            simp [hvv]
    · rename_i hn
      simp only [Option.some.injEq] at h
      subst h
      rw [hBp, (pathStep_same m).2.2.2.2 hm] at hl
      exact absurd hl hn
  · refine ⟨B, ?_, same⟩
    unfold localStep; rw [if_neg hl]

/-- **C38** (for non-empty module paths, no module called `std` behind a replacement or go.mod file, no doubled `std/` prefix, and a
project version that is not itself a pseudo-version and has no build metadata). Normalising a normalised package succeeds and keeps
its import path, module path and version. -/
theorem C38_normalising_is_idempotent_partial (hv : opts.moduleVersion ≠ [])
    (hnb : ∀ b, Version opts.moduleVersion b → b = []) (hnp : ∀ rev, ¬ PseudoVersion opts.moduleVersion rev)
    {p q : PkgSt} {mq : ModInfo} (hp : ∀ m, p.module = some m → (effective m).path ≠ [])
    (h : normalize env opts p = some q) (hq : q.module = some mq) (hstd : mq.path ≠ go!"std") (hpre : ¬ go!"std/" <+: q.path) :
    ∃ q' mq', normalize env opts q = some q' ∧ q'.path = q.path ∧ q'.module = some mq' ∧ mq'.path = mq.path ∧ mq'.version = mq.version := by
  have hr : reduceVersion opts.moduleVersion = opts.moduleVersion := reduce_other hnb hnp
  by_cases hd : opts.driverSet = true
  · exact ⟨q, mq, normalize_idem_driver hd h, rfl, hq, rfl, rfl⟩
  have hd : opts.driverSet = false := by simpa using hd
  by_cases hs : opts.stdlib = true
  · refine ⟨_, _, normalize_standard hd (by simp [hs]), ?_, rfl, ?_⟩
    · show Str.trimPrefix q.path go!"std/" = _
      rcases trimPrefix_std q.path with ⟨h1, _⟩ | ⟨_, h2⟩
      · exact absurd h1 hpre
      · exact h2
    · rw [normalize_standard hd (by simp [hs])] at h
      simp only [Option.some.injEq] at h
      rw [← h] at hq
      simp only [standardResult, Option.some.injEq] at hq
      rw [← hq]; exact ⟨rfl, rfl⟩
  have hs : opts.stdlib = false := by simpa using hs
  unfold normalize at h
  rw [if_neg (by simp [hd])] at h
  simp only at h
  have hm0 : (replaceStep opts (standardStep opts p).2).path ≠ [] := by
    unfold standardStep
    split
    · simp [replaceStep]
    · rename_i hn
      simp only
      cases hmp : p.module with
      | none => simp [isStandardLib, hmp] at hn
      | some m =>
        have := hp m hmp
        unfold effective at this
        unfold replaceStep
        simp only [Option.getD_some]
        cases hre : m.replace with
        | none => rw [hre] at this; exact this
        | some r => rw [hre] at this; simp only; split <;> exact this
  cases hl : localStep env (replaceStep opts (standardStep opts p).2) with
  | none => simp [hl] at h
  | some b =>
    rw [hl] at h
    simp only [Option.some.injEq] at h
    subst h
    simp only [Option.some.injEq] at hq
    subst hq
    obtain ⟨b', h1, h2, h3⟩ := steps_again hv hr hm0 hl
    refine ⟨⟨_, some ⟨versionStep env opts (pathStep b'), none⟩⟩, _, ?_, rfl, rfl, h2, h3⟩
    rw [normalize, if_neg (by simp [hd])]
    have hs' : standardStep opts ⟨(standardStep opts p).1, some ⟨versionStep env opts (pathStep b), none⟩⟩ =
        ((standardStep opts p).1, ⟨versionStep env opts (pathStep b), none⟩) := by
      conv => lhs; unfold standardStep isStandardLib
      rw [if_neg]
      · rfl
      · simpa [hs] using hstd
    rw [hs']
    simp only [replaceStep, h1]

/-- **C38 fails in general**: if the project version is a pseudo-version, an unversioned module of the project's repository gets it
verbatim when normalised once and reduced to its revision when normalised twice. -/
theorem C38_not_idempotent (env : Env) (opts : Opts) (path pkgPath : Str) {rev : Str} (hd : opts.driverSet = false) (hs : opts.stdlib = false)
    (hv : PseudoVersion opts.moduleVersion rev) (hne : rev ≠ opts.moduleVersion) (hpath : path ≠ []) (hstd : path ≠ go!"std")
    (hroot : path = opts.modulePath) :
    ∃ q m q' m', normalize env opts ⟨pkgPath, some ⟨⟨path, [], [], []⟩, none⟩⟩ = some q ∧ q.module = some m ∧ m.version = opts.moduleVersion ∧
      normalize env opts q = some q' ∧ q'.module = some m' ∧ m'.version = rev ∧ m'.version ≠ m.version := by
  have hl : ∀ v, localStep env ⟨path, v, [], []⟩ = some ⟨path, v, [], []⟩ := by
    intro v; unfold localStep; rw [if_neg (by simp)]
  have hps : ∀ v, pathStep ⟨path, v, [], []⟩ = ⟨path, v, [], []⟩ := by
    intro v; unfold pathStep; rw [if_neg hpath]
  have hst : ∀ v, standardStep opts ⟨pkgPath, some ⟨⟨path, v, [], []⟩, none⟩⟩ = (pkgPath, ⟨⟨path, v, [], []⟩, none⟩) := by
    intro v; unfold standardStep isStandardLib; rw [if_neg (by simpa [hs] using hstd)]; rfl
  have hvn : opts.moduleVersion ≠ [] := by
    intro e; obtain ⟨⟨b, hb⟩, -⟩ := hv; rw [e] at hb; cases hb
  have n1 : normalize env opts ⟨pkgPath, some ⟨⟨path, [], [], []⟩, none⟩⟩ = some ⟨pkgPath, some ⟨⟨path, opts.moduleVersion, [], []⟩, none⟩⟩ := by
    rw [normalize, if_neg (by simp [hd])]
    simp only [hst, replaceStep, hl, hps]
    unfold versionStep hasSameRepoRoot
    simp [hroot]
  have n2 : normalize env opts ⟨pkgPath, some ⟨⟨path, opts.moduleVersion, [], []⟩, none⟩⟩ = some ⟨pkgPath, some ⟨⟨path, rev, [], []⟩, none⟩⟩ := by
    rw [normalize, if_neg (by simp [hd])]
    simp only [hst, replaceStep, hl, hps]
    unfold versionStep
    simp [hvn, reduce_pseudo hv]
  exact ⟨_, _, _, _, n1, rfl, rfl, n2, rfl, rfl, hne⟩

/-- **C45.** Loading terminates on every finite import graph (also a cyclic one), for every order of iterating over imports, and
giving it more steps does not change the result. -/
theorem C45_loading_terminates (env : Env) (opts : Opts) (hf : FiniteGraph g) (ho : ValidOrder g order) (pkgs : Nat → PkgSt) :
    ∃ n r, ∀ m, n ≤ m → loadPackages env opts (some (g, pkgs)) order m = some r := by
  obtain ⟨n, r, h⟩ := collectRoots_terminates (env := env) (opts := withVersion opts) hf ho (initial pkgs) [] g.roots (fun _ h => h)
  have key : ∀ m, n ≤ m → collectRoots env (withVersion opts) g order m (initial pkgs) [] g.roots = some r := by
    intro m hm
    obtain ⟨k, rfl⟩ := Nat.exists_eq_add_of_le hm
    exact collectRoots_more h k
  refine ⟨n, r.map fun x => ⟨x.1, x.2⟩, fun m hm => ?_⟩
  unfold loadPackages
  show (match collectRoots env (withVersion opts) g order m (initial pkgs) [] g.roots with
    | none => none
    | some none => some none
    | some (some (st, project)) => some (some (Loaded.mk st project))) = _
  rw [key m hm]
  cases r with
  | none => rfl
  | some x => rfl

/-- **C46.** Every project package has an entry of the same key in the set of all packages, no entry is nil, and `builtin` is
present. -/
theorem C46_project_packages_are_among_all (ho : ValidOrder g order)
    (h : loadPackages env opts (some (g, pkgs)) order fuel = some (some l)) :
    (∀ k v, l.project.get k = some v → (∃ x, v = some x) ∧ ∃ y, l.st.all.get k = some y) ∧
    (∃ y, l.st.all.get go!"builtin" = some y) ∧ l.project.keys.Nodup ∧ l.st.all.keys.Nodup := by
  obtain ⟨hI, hP⟩ := load_inv ho h
  refine ⟨fun k v hk => ⟨hP.nonNil k v hk, ?_⟩, GoMap.mem_keys.1 hI.builtinKey, hP.nodup, hI.nodup⟩
  exact GoMap.mem_keys.1 (hP.keys k (GoMap.mem_keys.2 ⟨v, hk⟩))

/-- **C46** (if for every matched path some matched package has as many files as any package of this path). A project package is
the same object in both sets. -/
theorem C46_same_object_partial (ho : ValidOrder g order) (hp : opts.driverSet = true ∨ NoStdPrefix pkgs) (hr : RootsLargest g pkgs)
    (h : loadPackages env opts (some (g, pkgs)) order fuel = some (some l)) {k : Str} {v : Option Kept} (hk : l.project.get k = some v) :
    ∃ x, v = some x ∧ l.st.all.get k = some x := by
  have hL := load_latest ho hp h
  obtain ⟨x, y, rfl, hy, hxy, hmax⟩ := hL.value k v hk
  obtain ⟨i, hi, hik⟩ := (hL.keys k).1 (GoMap.mem_keys.2 ⟨_, hk⟩)
  rcases hxy with rfl | hlt
  · exact ⟨y, rfl, hy⟩
  · exfalso
    cases y with
    | builtin => simp [Kept.files] at hlt
    | loaded j =>
      obtain ⟨hI, -⟩ := load_inv ho h
      have hC := load_invC ho hp h
      have hj := hI.reach j (.inl (hI.keptMet k j hy))
      obtain ⟨i', hi', hik', hf⟩ := hr i j hi hj (by rw [hC.key k j hy, hik])
      have := hmax i' hi' (by rw [hik', hik])
      have h2 : x.files g < g.files j := hlt
      omega

/-- **C46 fails in general**: if a larger variant of a matched path is reached only as an import, the project set keeps the smaller
one. -/
theorem C46_stale_variant (env : Env) :
    ∃ g pkgs l, loadPackages env ⟨[], [], [], true, [], false⟩ (some (g, pkgs)) (fun _ i => g.imports i) 5 = some (some l) ∧
      l.project.get go!"p" = some (some (.loaded 0)) ∧ l.st.all.get go!"p" = some (.loaded 1) ∧ g.files 0 < g.files 1 := by
  refine ⟨⟨fun i => if i = 1 then 2 else 1, fun i => if i = 2 then [1] else [], [0, 2]⟩, fun i => ⟨if i = 2 then go!"q" else go!"p", none⟩, ?_⟩
  exact ⟨_, rfl, rfl, rfl, by simp⟩

/-- **C47.** Two absolute directories are taken as nested iff one is at or above the other. -/
theorem C47_nested_iff (a b : Str) (ha : Absolute a) (hb : Absolute b) :
    Filepath.isNestedDir a b = true ↔ AtOrAbove (directory a) (directory b) ∨ AtOrAbove (directory b) (directory a) :=
  Filepath.isNestedDir_abs ha hb

/-- **C47.** The relation is symmetric, for all paths, and false for unknown (empty) directories. -/
theorem C47_symmetric (a b : Str) : Filepath.isNestedDir a b = Filepath.isNestedDir b a := Filepath.isNestedDir_symm a b

theorem C47_unknown_directory (a : Str) : Filepath.isNestedDir [] a = false ∧ Filepath.isNestedDir a [] = false := by
  constructor <;> simp [Filepath.isNestedDir]

theorem same_root_iff {a b : Str} : hasSameRepoRoot env a b = true ↔ a = b ∨ ∃ r, env.repoRoot a = some r ∧ env.repoRoot b = some r := by
  unfold hasSameRepoRoot
  split
  · rename_i h; simp [h]
  · rename_i h
    cases ha : env.repoRoot a with
    | none => simp [h]
    | some x =>
      cases hb : env.repoRoot b with
      | none => simp [h]
      | some y => simp only [beq_iff_eq, h, Option.some.injEq, false_or, exists_eq_left']; exact ⟨fun e => e.symm, fun e => e.symm⟩

theorem nested_iff {a b : Str} (ha : a = [] ∨ Absolute a) (hb : b = [] ∨ Absolute b) :
    Filepath.isNestedDir a b = true ↔ Absolute a ∧ Absolute b ∧ (AtOrAbove (directory a) (directory b) ∨ AtOrAbove (directory b) (directory a)) := by
  rcases ha with rfl | ha
  · simp [(C47_unknown_directory b).1, Absolute]
  rcases hb with rfl | hb
  · simp [(C47_unknown_directory a).2, Absolute]
  rw [C47_nested_iff a b ha hb]; simp [ha, hb]

theorem comes_nil {e : ModBase} (h : ComesWithVersion env e []) : e.version = [] ∧
    (Loader.Spec.IsLocal e → env.readMod e.goMod = .unreadable ∨ ∃ p, env.readMod e.goMod = .parsed p []) := by
  obtain ⟨z, hz⟩ : ∃ z : Str, z = [] := ⟨_, rfl⟩
  rw [← hz] at h
  cases h with
  | delivered h => exact ⟨hz, h⟩
  | goMod _ _ hne => exact absurd hz hne

/-- **C48.** A package whose module is not replaced and comes without version gets the project version if it belongs to the project,
and `.` otherwise. -/
theorem C48_unversioned_packages (ho : ValidOrder g order) (hp : PathsOnce opts pkgs)
    (h : loadPackages env opts (some (g, pkgs)) order fuel = some (some l)) {k : Str} {i : Nat} {m : ModInfo}
    (hk : l.st.all.get k = some (.loaded i)) (hu : Userland opts (pkgs i) m) (hr : m.replace = none) (hv : ComesWithVersion env m.toModBase [])
    (hd : m.dir = [] ∨ Absolute m.dir) (hd' : opts.moduleRoot = [] ∨ Absolute opts.moduleRoot) :
    ∃ m', (l.st.pkgs i).module = some m' ∧ (BelongsToProject env opts m.dir m'.path → m'.version = projectVersion opts) ∧
      (¬ BelongsToProject env opts m.dir m'.path → m'.version = go!".") := by
  have hn := (load_invN ho hp h).kept k i hk
  obtain ⟨-, m', v', path, h1, -, -, -, h2, -, -, h3⟩ := normalize_userland (withVersion_userland hu) hn
  have e : effective m = m.toModBase := by unfold effective; rw [hr]; rfl
  have e' : replaceStep (withVersion opts) m = m.toModBase := by unfold replaceStep; rw [hr]
  rw [e'] at h2
  have := comes_unique h2 hv
  subst this
  have hw := withVersion_rest opts
  have hb : (Filepath.isNestedDir m.dir (withVersion opts).moduleRoot || hasSameRepoRoot env m'.path (withVersion opts).modulePath) = true ↔
      BelongsToProject env opts m.dir m'.path := by
    rw [Bool.or_eq_true, same_root_iff, hw.1, hw.2.1, nested_iff hd hd']; rfl
  refine ⟨m', h1, fun hB => ?_, fun hB => ?_⟩
  · rw [h3]; unfold versionStep; simp only [↓reduceIte, e]; rw [if_pos (hb.2 hB)]; exact (withVersion_version opts).1
  · rw [h3]; unfold versionStep; simp only [↓reduceIte, e]; rw [if_neg (fun h => hB (hb.1 h))]

/-- **C48.** A package whose module is replaced by one without version always gets the project version, reduced like any other
version. -/
theorem C48_replaced_unversioned (ho : ValidOrder g order) (hp : PathsOnce opts pkgs)
    (h : loadPackages env opts (some (g, pkgs)) order fuel = some (some l)) {k : Str} {i : Nat} {m : ModInfo} {r : ModBase}
    (hk : l.st.all.get k = some (.loaded i)) (hu : Userland opts (pkgs i) m) (hr : m.replace = some r) (hv : ComesWithVersion env r []) :
    ∃ m', (l.st.pkgs i).module = some m' ∧
      (∀ rev, PseudoVersion (projectVersion opts) rev → m'.version = rev) ∧
      ((∀ b, Version (projectVersion opts) b → b = []) → (∀ rev, ¬ PseudoVersion (projectVersion opts) rev) → m'.version = projectVersion opts) := by
  have hn := (load_invN ho hp h).kept k i hk
  obtain ⟨-, m', v', path, h1, -, -, -, h2, -, -, h3⟩ := normalize_userland (withVersion_userland hu) hn
  obtain ⟨hrv, hloc⟩ := comes_nil hv
  have e' : replaceStep (withVersion opts) m = { r with version := projectVersion opts } := by
    unfold replaceStep; rw [hr]; simp only; rw [if_pos hrv, (withVersion_version opts).1]
  rw [e'] at h2
  have hv' : v' = projectVersion opts := by
    exact comes_unique h2 (ComesWithVersion.delivered (e := { r with version := projectVersion opts }) fun hl => hloc hl)
  refine ⟨m', h1, ?_, ?_⟩
  · intro rev hrev
    rw [h3, versionStep_nonempty (by rw [hv']; exact (withVersion_version opts).2), hv']
    exact reduce_pseudo hrev
  · intro h4 h5
    rw [h3, versionStep_nonempty (by rw [hv']; exact (withVersion_version opts).2), hv']
    exact reduce_other h4 h5

theorem comes_path_unique {e : ModBase} {v w : Str} (h : ComesWithPath env e v) (h' : ComesWithPath env e w) : v = w := by
  cases h with
  | delivered h =>
    cases h' with
    | delivered _ => rfl
    | goMod h1 h2 => rw [h h1] at h2; simp at h2
  | goMod h1 h2 =>
    cases h' with
    | delivered h => rw [h h1] at h2; simp at h2
    | goMod h3 h4 => rw [h2] at h4; simp only [ModRead.parsed.injEq] at h4; exact h4.1

/-- **C72.** The module path of a loaded package of an ordinary module: that of the replacement if the module is replaced, the one its
go.mod file names if that is a local directory, and `.` if this is empty. The import path is not changed. -/
theorem C72_module_path (ho : ValidOrder g order) (hp : PathsOnce opts pkgs)
    (h : loadPackages env opts (some (g, pkgs)) order fuel = some (some l)) {k : Str} {i : Nat} {m : ModInfo}
    (hk : l.st.all.get k = some (.loaded i)) (hu : Userland opts (pkgs i) m) :
    (l.st.pkgs i).path = (pkgs i).path ∧ ∃ m' path, (l.st.pkgs i).module = some m' ∧ ComesWithPath env (effective m) path ∧
      m'.path = (if path = [] then go!"." else path) ∧ ∀ path', ComesWithPath env (effective m) path' → path' = path := by
  have hn := (load_invN ho hp h).kept k i hk
  obtain ⟨h0, m', v', path, h1, -, -, -, -, h2, h3, -⟩ := normalize_userland (withVersion_userland hu) hn
  exact ⟨h0, m', path, h1, h2, h3, fun p hp => comes_path_unique hp h2⟩

end Verif
