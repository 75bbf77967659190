import Verif.Spec.Loader
import Verif.Lemmas.Pseudo
import Verif.Lemmas.Filepath
import Verif.Lemmas.GoMap
/-! # Lemmas about package loading -/
namespace Verif.Loader
open Spec Semver Semver.Spec

/-! ## Versions -/

theorem reduce_pseudo {v rev : Str} (h : PseudoVersion v rev) : reduceVersion v = rev := by
  unfold reduceVersion
  rw [if_pos (isPseudo_iff.2 ⟨rev, h⟩), rev_of h]

theorem reduce_build {v x b : Str} (hv : Version v b) (hb : b ≠ []) (e : v = x ++ b) (hp : ∀ rev, ¬ PseudoVersion v rev) :
    reduceVersion v = x := by
  unfold reduceVersion
  have : isPseudoVersion v = false := by
    cases h : isPseudoVersion v with
    | false => rfl
    | true => obtain ⟨rev, hr⟩ := isPseudo_iff.1 h; exact absurd hr (hp rev)
  rw [if_neg (by simp [this]), build_of hv, if_pos hb, e, trimSuffix_append]

theorem build_nil_iff {v : Str} : build v = [] ↔ ∀ b, Version v b → b = [] := by
  constructor
  · intro h b hb; rw [build_of hb] at h; exact h
  · intro h
    unfold build
    cases hp : parse v with
    | none => rfl
    | some b => simp [h b (parse_iff.1 hp)]

theorem reduce_other {v : Str} (hv : ∀ b, Version v b → b = []) (hp : ∀ rev, ¬ PseudoVersion v rev) : reduceVersion v = v := by
  unfold reduceVersion
  have : isPseudoVersion v = false := by
    cases h : isPseudoVersion v with
    | false => rfl
    | true => obtain ⟨rev, hr⟩ := isPseudo_iff.1 h; exact absurd hr (hp rev)
  rw [if_neg (by simp [this]), if_neg (by simpa using build_nil_iff.2 hv)]

/-- The three cases of a version. -/
theorem version_cases (v : Str) : (∃ rev, PseudoVersion v rev) ∨
    ((∀ rev, ¬ PseudoVersion v rev) ∧ ∃ b x, Version v b ∧ b ≠ [] ∧ v = x ++ b) ∨
    ((∀ rev, ¬ PseudoVersion v rev) ∧ ∀ b, Version v b → b = []) := by
  by_cases h : ∃ rev, PseudoVersion v rev
  · exact .inl h
  · have h : ∀ rev, ¬ PseudoVersion v rev := fun rev hr => h ⟨rev, hr⟩
    by_cases h' : ∀ b, Version v b → b = []
    · exact .inr (.inr ⟨h, h'⟩)
    · refine .inr (.inl ⟨h, ?_⟩)
      obtain ⟨b, hb⟩ := Classical.not_forall.1 h'
      obtain ⟨hv, hn⟩ := Classical.not_imp.1 hb
      obtain ⟨x, e, -, -⟩ := version_split hv
      exact ⟨b, x, hv, hn, e⟩

theorem reduce_ne_nil {v : Str} (h : v ≠ []) : reduceVersion v ≠ [] := by
  rcases version_cases v with ⟨rev, hr⟩ | ⟨hp, b, x, hv, hb, e⟩ | ⟨hp, hv⟩
  · rw [reduce_pseudo hr]; exact rev_ne_nil hr
  · rw [reduce_build hv hb e hp]
    rintro rfl
    obtain ⟨y, e', hy, hne⟩ := version_split hv
    rw [List.nil_append] at e
    rw [e] at e'
    have := List.append_cancel_right (as := []) (bs := b) (cs := y) (by simpa using e')
    exact hne this.symm
  · rw [reduce_other hv hp]; exact h

theorem reduce_idem (v : Str) : reduceVersion (reduceVersion v) = reduceVersion v := by
  rcases version_cases v with ⟨rev, hr⟩ | ⟨hp, b, x, hv, hb, e⟩ | ⟨hp, hv⟩
  · rw [reduce_pseudo hr]
    obtain ⟨h1, h2⟩ := rev_stable hr
    unfold reduceVersion
    rw [if_neg (by simp [h1]), if_neg (by simp [h2])]
  · rw [reduce_build hv hb e hp]
    obtain ⟨h1, h2⟩ := drop_build hv e
    refine reduce_other (fun b' hb' => ?_) (fun rev hr => ?_)
    · have := build_of h1; rw [build_of hb'] at this; exact this
    · obtain ⟨rev', hr'⟩ := isPseudo_iff.1 (h2 (isPseudo_iff.2 ⟨rev, hr⟩))
      exact hp rev' hr'
  · rw [reduce_other hv hp, reduce_other hv hp]

theorem reduce_dot : reduceVersion go!"." = go!"." := by
  refine reduce_other (fun b h => ?_) (fun rev h => ?_)
  · have := parse_iff.2 h; revert this; simp [parse]
  · obtain ⟨b, h⟩ := h.1
    have := parse_iff.2 h; revert this; simp [parse]

/-! ## Normalisation -/

theorem trimPrefix_std (s : Str) : (go!"std/" <+: s ∧ s = go!"std/" ++ Str.trimPrefix s go!"std/") ∨
    (¬ go!"std/" <+: s ∧ Str.trimPrefix s go!"std/" = s) := by
  unfold Str.trimPrefix Str.hasPrefix
  by_cases h : go!"std/" <+: s
  · left
    obtain ⟨t, rfl⟩ := h
    refine ⟨⟨t, rfl⟩, ?_⟩
    rw [if_pos (by simp)]
    simp
  · right
    refine ⟨h, ?_⟩
    rw [if_neg (by rw [List.isPrefixOf_iff_prefix]; exact h)]

/-- Normalising changes the import path at most by removing a `std/` prefix. -/
theorem normalize_path {env opts p q} (h : normalize env opts p = some q) :
    q.path = p.path ∨ (opts.driverSet = false ∧ p.path = go!"std/" ++ q.path) := by
  unfold normalize at h
  split at h
  · simp only [Option.some.injEq] at h; subst h; exact .inl rfl
  · rename_i hd
    simp only at h
    split at h
    · simp at h
    · simp only [Option.some.injEq] at h
      subst h
      unfold standardStep
      split
      · rcases trimPrefix_std p.path with ⟨_, e⟩ | ⟨_, e⟩
        · exact .inr ⟨by simpa using hd, e⟩
        · exact .inl e
      · exact .inl rfl

theorem normalize_path_stdlib {env opts p q} (hd : opts.driverSet = false) (hs : opts.stdlib = true) (h : normalize env opts p = some q) :
    q.path = Str.trimPrefix p.path go!"std/" := by
  unfold normalize at h
  rw [if_neg (by simp [hd])] at h
  simp only at h
  split at h
  · simp at h
  · simp only [Option.some.injEq] at h
    subst h
    simp [standardStep, hs]

theorem normalize_module {env opts p q} (h : normalize env opts p = some q) : ∃ m, q.module = some m := by
  unfold normalize at h
  split at h
  · simp only [Option.some.injEq] at h; subst h; exact ⟨_, rfl⟩
  · simp only at h
    split at h
    · simp at h
    · simp only [Option.some.injEq] at h
      subst h; exact ⟨_, rfl⟩

theorem normalize_nonempty {env opts p q m} (hv : opts.moduleVersion ≠ []) (h : normalize env opts p = some q) (hm : q.module = some m) :
    m.path ≠ [] ∧ m.version ≠ [] := by
  unfold normalize at h
  split at h
  · simp only [Option.some.injEq] at h; subst h
    simp only [Option.some.injEq] at hm; subst hm
    unfold driverStep
    refine ⟨?_, ?_⟩
    · simp only; split
      · assumption
      · simp
    · simp [hv]
  · simp only at h
    split at h
    · simp at h
    · rename_i m' _
      simp only [Option.some.injEq] at h
      subst h
      simp only [Option.some.injEq] at hm; subst hm
      have hp : (pathStep m').path ≠ [] := by
        unfold pathStep; split
        · simp
        · assumption
      unfold versionStep
      split
      · split
        · exact ⟨hp, hv⟩
        · exact ⟨hp, by simp⟩
      · rename_i hne
        exact ⟨hp, reduce_ne_nil hne⟩

theorem normalize_driver {env opts p} (h : opts.driverSet = true) :
    normalize env opts p = some { p with module := some (driverStep opts) } := by
  unfold normalize; rw [if_pos h]

/-- Normalising twice is normalising once, with a driver. -/
theorem normalize_idem_driver {env opts p q} (hd : opts.driverSet = true) (h : normalize env opts p = some q) :
    normalize env opts q = some q := by
  rw [normalize_driver hd] at h ⊢
  simp only [Option.some.injEq] at h
  subst h; rfl

/-- What normalising a standard library package gives. -/
def standardResult (env : Env) (opts : Opts) (path : Str) : PkgSt :=
  ⟨Str.trimPrefix path go!"std/", some ⟨versionStep env opts ⟨go!"github.com/golang/go/src", opts.goVersion, [], []⟩, none⟩⟩

theorem normalize_standard {env opts p} (hd : opts.driverSet = false) (hs : (isStandardLib p || opts.stdlib) = true) :
    normalize env opts p = some (standardResult env opts p.path) := by
  unfold normalize standardStep
  rw [if_neg (by simp [hd]), if_pos hs]
  rfl

theorem normalize_idem_stdlib {env opts p q} (hd : opts.driverSet = false) (hs : opts.stdlib = true)
    (hp : ¬ go!"std/std/" <+: p.path) (h : normalize env opts p = some q) : normalize env opts q = some q := by
  rw [normalize_standard hd (by simp [hs])] at h ⊢
  simp only [Option.some.injEq] at h
  subst h
  have : ¬ go!"std/" <+: Str.trimPrefix p.path go!"std/" := by
    rcases trimPrefix_std p.path with ⟨_, e⟩ | ⟨h, e⟩
    · rintro ⟨t, e'⟩
      refine hp ⟨t, ?_⟩
      rw [e, ← e']
      rfl
    · rw [e]; exact h
  rcases trimPrefix_std (Str.trimPrefix p.path go!"std/") with ⟨h, _⟩ | ⟨_, e⟩
  · exact absurd h this
  · simp [standardResult, e]

end Verif.Loader
