import Verif.Props.Debug
/-! # C106: what a whole load tells -/
namespace Verif
open Loader Loader.Spec Semver.Spec Spec Debug

section
variable {env : Loader.Env} {fails : Str → Bool} {opts : Loader.Opts} {g : Graph} {order : Nat → Nat → List Nat} {pkgs : Nat → PkgSt}

/-- The invariants of collecting packages. -/
structure InvAll (env : Loader.Env) (opts : Loader.Opts) (g : Graph) (pkgs : Nat → PkgSt) (st : St) (pending : List Nat) : Prop where
  inv : Inv env opts g st pending
  normal : InvN env opts pkgs st
  fixed : PathsFixed opts pkgs → InvC pkgs g st

theorem InvAll.skip {st : St} {i : Nat} {rest : List Nat} (h : InvAll env opts g pkgs st (i :: rest)) (hk : alreadyKept g st i = true) :
    InvAll env opts g pkgs (st.skip i) rest := ⟨h.inv.skip hk, h.normal.skip, fun hf => (h.fixed hf).skip hk⟩

/-- A package that is normalised again gives the same. -/
theorem InvAll.again (hp : PathsOnce opts pkgs) {st : St} {i : Nat} {rest : List Nat} (h : InvAll env opts g pkgs st (i :: rest))
    (hk : alreadyKept g st i = false) : st.pkgs i = pkgs i ∨ normalize env opts (pkgs i) = some (st.pkgs i) ∧
      (opts.driverSet = true ∨ opts.driverSet = false ∧ opts.stdlib = true ∧ ¬ go!"std/std/" <+: (pkgs i).path) := by
  rcases h.normal.each i with e | ⟨e, hm⟩
  · exact .inl e
  · by_cases hd : opts.driverSet = true
    · exact .inr ⟨e, .inl hd⟩
    · rcases hp with hp | hp | ⟨hs, hp⟩
      · exact absurd hp hd
      · exfalso
        have hC := h.fixed (.inr hp)
        obtain ⟨k, hk', hf⟩ := hC.best h.inv hm
        rw [Bool.eq_false_iff] at hk
        exact hk (alreadyKept_iff.2 ⟨k, by rw [hC.same]; exact hk', hf⟩)
      · exact .inr ⟨e, .inr ⟨by simpa using hd, hs, hp i⟩⟩

theorem InvAll.keep (ho : ValidOrder g order) (hp : PathsOnce opts pkgs) {st : St} {i : Nat} {rest : List Nat} {p : PkgSt} {n : Nat}
    (h : InvAll env opts g pkgs st (i :: rest)) (hk : alreadyKept g st i = false) (hn : normalize env opts (st.pkgs i) = some p) :
    InvAll env opts g pkgs (st.keep i p) (order n i ++ rest) := by
  refine ⟨h.inv.keep ho hn, h.normal.keep hn fun e _ => ?_, fun hf => (h.fixed hf).keep h.inv hk (fixed_same hf ((h.fixed hf).same _) hn)⟩
  rcases h.again hp hk with h1 | ⟨_, hd | ⟨hd, hs, hpp⟩⟩
  · rw [h1] at hn
    rw [e] at hn
    simp only [Option.some.injEq] at hn
    exact hn.symm
  · rw [normalize_idem_driver hd e] at hn; simpa using hn.symm
  · rw [normalize_idem_stdlib hd hs hpp e] at hn; simpa using hn.symm

/-- And the same is told of it. -/
theorem InvAll.same_notes (hp : PathsOnce opts pkgs) {st : St} {i : Nat} {rest : List Nat} (h : InvAll env opts g pkgs st (i :: rest))
    (hk : alreadyKept g st i = false) : normalizeDebug env fails opts (st.pkgs i) = normalizeDebug env fails opts (pkgs i) := by
  rcases h.again hp hk with h1 | ⟨_, hd | ⟨hd, hs, _⟩⟩
  · rw [h1]
  · rw [debug_driver hd, debug_driver hd]
  · rw [debug_standard hd (by simp [hs]), debug_standard hd (by simp [hs])]

/-- Packages are normalised one after the other; this happens to package `i` in state `st`. -/
structure Step (env : Loader.Env) (opts : Loader.Opts) (g : Graph) (pkgs : Nat → PkgSt) (i : Nat) : Prop where
  ok : ∃ st rest, InvAll env opts g pkgs st (i :: rest) ∧ alreadyKept g st i = false

theorem collectDebug_steps (ho : ValidOrder g order) (hp : PathsOnce opts pkgs) : ∀ (fuel : Nat) (st : St) (pending : List Nat),
    InvAll env opts g pkgs st pending →
    (∀ n ∈ collectDebug env fails opts g order fuel st pending, ∃ i, Step env opts g pkgs i ∧ n ∈ normalizeDebug env fails opts (pkgs i)) ∧
    (collect env opts g order fuel st pending = some none → ∃ i, Step env opts g pkgs i ∧ normalize env opts (pkgs i) = none ∧
      ∀ n ∈ normalizeDebug env fails opts (pkgs i), n ∈ collectDebug env fails opts g order fuel st pending) ∧
    (∀ st', collect env opts g order fuel st pending = some (some st') → InvAll env opts g pkgs st' [] ∧
      ∀ k i, st'.all.get k = some (.loaded i) → st.all.get k = some (.loaded i) ∨
        ∀ n ∈ normalizeDebug env fails opts (pkgs i), n ∈ collectDebug env fails opts g order fuel st pending) := by
  intro fuel
  induction fuel with
  | zero =>
    intro st pending hI
    cases pending with
    | nil =>
      refine ⟨by simp [collectDebug], by simp [collect], fun st' h => ?_⟩
      simp only [collect, Option.some.injEq] at h
      subst h
      exact ⟨hI, fun k i h => .inl h⟩
    | cons i rest => exact ⟨by simp [collectDebug], by simp [collect], by simp [collect]⟩
  | succ fuel ih =>
    intro st pending hI
    cases pending with
    | nil =>
      refine ⟨by simp [collectDebug], by simp [collect], fun st' h => ?_⟩
      simp only [collect, Option.some.injEq] at h
      subst h
      exact ⟨hI, fun k i h => .inl h⟩
    | cons i rest =>
      unfold collect collectDebug
      dsimp only
      have hk : alreadyKept g { st with met := st.met ++ [i] } i = alreadyKept g st i := rfl
      rw [hk]
      cases hg : alreadyKept g st i with
      | true =>
        simp only [if_true]
        exact ih _ rest (hI.skip hg)
      | false =>
        simp only [Bool.false_eq_true, if_false]
        have hstep : Step env opts g pkgs i := ⟨st, rest, hI, hg⟩
        have hsame := hI.same_notes (fails := fails) hp hg
        rw [hsame]
        cases hn : normalize env opts (st.pkgs i) with
        | none =>
          refine ⟨fun n h => ⟨i, hstep, by simpa using h⟩, fun _ => ⟨i, hstep, ?_, by simp⟩, by simp⟩
          rcases hI.again hp hg with h1 | ⟨h1, hd | ⟨hd, hs, hpp⟩⟩
          · rw [← h1]; exact hn
          · rw [normalize_idem_driver hd h1] at hn; simp at hn
          · rw [normalize_idem_stdlib hd hs hpp h1] at hn; simp at hn
        | some p =>
          obtain ⟨h1, h2, h3⟩ := ih (st.keep i p) (order (st.met ++ [i]).length i ++ rest) (hI.keep ho hp hg hn)
          refine ⟨fun n h => ?_, fun h => ?_, fun st' h => ?_⟩
          · rcases List.mem_append.1 h with h | h
            · exact ⟨i, hstep, h⟩
            · exact h1 n h
          · obtain ⟨j, hj, hn', hm⟩ := h2 h
            exact ⟨j, hj, hn', fun n hx => List.mem_append_right _ (hm n hx)⟩
          · obtain ⟨ha, hb⟩ := h3 st' h
            refine ⟨ha, fun k j hj => ?_⟩
            rcases hb k j hj with h | h
            · rw [get_keep] at h
              split at h
              · simp only [Option.some.injEq, Kept.loaded.injEq] at h
                subst h
                exact .inr fun n hx => List.mem_append_left _ hx
              · exact .inl h
            · exact .inr fun n hx => List.mem_append_right _ (h n hx)

theorem collectRootsDebug_steps (ho : ValidOrder g order) (hp : PathsOnce opts pkgs) (fuel : Nat) : ∀ (roots : List Nat) (st : St)
    (project : GoMap (Option Kept)), (∀ i ∈ roots, i ∈ g.roots) → InvAll env opts g pkgs st [] →
    (∀ n ∈ collectRootsDebug env fails opts g order fuel st roots, ∃ i, Step env opts g pkgs i ∧ n ∈ normalizeDebug env fails opts (pkgs i)) ∧
    (collectRoots env opts g order fuel st project roots = some none → ∃ i, Step env opts g pkgs i ∧ normalize env opts (pkgs i) = none ∧
      ∀ n ∈ normalizeDebug env fails opts (pkgs i), n ∈ collectRootsDebug env fails opts g order fuel st roots) ∧
    (∀ st' project', collectRoots env opts g order fuel st project roots = some (some (st', project')) →
      ∀ k i, st'.all.get k = some (.loaded i) → st.all.get k = some (.loaded i) ∨
        ∀ n ∈ normalizeDebug env fails opts (pkgs i), n ∈ collectRootsDebug env fails opts g order fuel st roots) := by
  intro roots
  induction roots with
  | nil =>
    intro st project _ _
    refine ⟨by simp [collectRootsDebug], by simp [collectRoots], fun st' project' h => ?_⟩
    simp only [collectRoots, Option.some.injEq, Prod.mk.injEq] at h
    obtain ⟨rfl, _⟩ := h
    exact fun k i h => .inl h
  | cons r rest ih =>
    intro st project hr hI
    have hI' : InvAll env opts g pkgs st [r] := ⟨hI.inv.root (hr r (by simp)), hI.normal, hI.fixed⟩
    obtain ⟨h1, h2, h3⟩ := collectDebug_steps (fails := fails) ho hp fuel st [r] hI'
    unfold collectRoots collectRootsDebug
    cases hc : collect env opts g order fuel st [r] with
    | none => refine ⟨fun n h => h1 n (by simpa using h), by simp, by simp⟩
    | some x =>
      cases x with
      | none =>
        refine ⟨fun n h => h1 n (by simpa using h), fun _ => ?_, by simp⟩
        obtain ⟨j, hj, hn', hm⟩ := h2 hc
        exact ⟨j, hj, hn', fun n hx => by simpa using hm n hx⟩
      | some st₁ =>
        obtain ⟨ha, hb⟩ := h3 st₁ hc
        obtain ⟨e1, e2, e3⟩ := ih st₁ (project.set (st₁.pkgs r).path (st₁.all.get (st₁.pkgs r).path)) (fun i hi => hr i (by simp [hi])) ha
        refine ⟨fun n h => ?_, fun h => ?_, fun st' project' h k i hk => ?_⟩
        · rcases List.mem_append.1 h with h | h
          · exact h1 n h
          · exact e1 n h
        · obtain ⟨j, hj, hn', hm⟩ := e2 h
          exact ⟨j, hj, hn', fun n hx => List.mem_append_right _ (hm n hx)⟩
        · rcases e3 st' project' h k i hk with h | h
          · rcases hb k i h with h | h
            · exact .inl h
            · exact .inr fun n hx => List.mem_append_left _ (h n hx)
          · exact .inr fun n hx => List.mem_append_right _ (h n hx)

theorem invAll_initial : InvAll env opts g pkgs (initial pkgs) [] := by
  refine ⟨inv_initial pkgs, ⟨fun _ => .inl rfl, ?_, ?_⟩, fun _ => invC_initial pkgs⟩ <;>
  · intro k i hk
    have := GoMap.mem_of_get hk
    simp [initial] at this

theorem Step.reachable {i : Nat} (h : Step env opts g pkgs i) : Reachable g i := by
  obtain ⟨st, rest, hI, _⟩ := h.ok
  exact hI.inv.reach i (.inr (by simp))

theorem once_withVersion (hp : PathsOnce opts pkgs) : PathsOnce (withVersion opts) pkgs := by
  unfold withVersion; split <;> exact hp

theorem loadDebug_eq (fuel : Nat) : loadDebug env fails opts (some (g, pkgs)) order fuel =
    collectRootsDebug env fails (withVersion opts) g order fuel (initial pkgs) g.roots := rfl

end

/-- **C106** (a whole load): whatever is told while packages are loaded is to be told of a package of the program; and of every package that is kept everything is
told that there is to tell. -/
theorem C106_load (env : Loader.Env) (fails : Str → Bool) (opts : Loader.Opts) (g : Graph) (pkgs : Nat → PkgSt) (order : Nat → Nat → List Nat) (fuel : Nat)
    (ho : ValidOrder g order) (hp : PathsOnce opts pkgs) (hr : opts.moduleRoot = [] ∨ Absolute opts.moduleRoot)
    (hd : ∀ i, Reachable g i → DirOk opts (pkgs i)) :
    (∀ n ∈ loadDebug env fails opts (some (g, pkgs)) order fuel, ∃ i, Reachable g i ∧ Told env fails opts (pkgs i) n) ∧
    (∀ l, loadPackages env opts (some (g, pkgs)) order fuel = some (some l) → ∀ k i, l.st.all.get k = some (.loaded i) →
      ∀ n, Told env fails opts (pkgs i) n → n ∈ loadDebug env fails opts (some (g, pkgs)) order fuel) := by
  have hp' := once_withVersion hp
  obtain ⟨h1, _, h3⟩ := collectRootsDebug_steps (env := env) (fails := fails) ho hp' fuel g.roots (initial pkgs) [] (fun _ h => h) invAll_initial
  rw [loadDebug_eq]
  refine ⟨fun n hn => ?_, fun l hl k i hk n hn => ?_⟩
  · obtain ⟨i, hs, hm⟩ := h1 n hn
    exact ⟨i, hs.reachable, ((C106_told env fails opts (pkgs i) (hd i hs.reachable) hr).2 n).1 hm⟩
  · obtain ⟨g', pkgs', e, hc⟩ := load_split hl
    simp only [Option.some.injEq, Prod.mk.injEq] at e
    obtain ⟨rfl, rfl⟩ := e
    have hreach := (load_inv ho hl).1.reach i (.inl ((load_inv ho hl).1.keptMet k i hk))
    rcases h3 _ _ hc k i hk with h | h
    · have := GoMap.mem_of_get h
      simp [initial] at this
    · exact h n (((C106_told env fails opts (pkgs i) (hd i hreach) hr).2 n).2 hn)

/-- **C106** (a load that fails): if the packages are delivered but loading fails, a local module of the program has a go.mod file that cannot be parsed or names no
module; if it cannot be parsed, this is told, with the name of the file. -/
theorem C106_failed_load (env : Loader.Env) (fails : Str → Bool) (opts : Loader.Opts) (g : Graph) (pkgs : Nat → PkgSt) (order : Nat → Nat → List Nat)
    (fuel : Nat) (ho : ValidOrder g order) (hp : PathsOnce opts pkgs) (hr : opts.moduleRoot = [] ∨ Absolute opts.moduleRoot)
    (hd : ∀ i, Reachable g i → DirOk opts (pkgs i)) (h : loadPackages env opts (some (g, pkgs)) order fuel = some none) :
    ∃ i m, Reachable g i ∧ OfModule opts (pkgs i) m ∧ Loader.Spec.IsLocal (effective m) ∧ env.readMod (effective m).goMod = .broken ∧
      (fails (effective m).goMod = true → .goModUnparsable (effective m).goMod ∈ loadDebug env fails opts (some (g, pkgs)) order fuel) := by
  have hp' := once_withVersion hp
  obtain ⟨_, h2, _⟩ := collectRootsDebug_steps (env := env) (fails := fails) ho hp' fuel g.roots (initial pkgs) [] (fun _ h => h) invAll_initial
  have hc : collectRoots env (withVersion opts) g order fuel (initial pkgs) [] g.roots = some none := by
    unfold loadPackages at h
    simp only at h
    unfold withVersion initial
    split at h
    · simp at h
    · assumption
    · simp at h
  obtain ⟨i, hs, hn, hm⟩ := h2 hc
  have hw := withVersion_rest opts
  have hdr : opts.driverSet = false := by
    cases hx : opts.driverSet with
    | false => rfl
    | true => rw [normalize_driver (by rw [hw.2.2.1]; exact hx)] at hn; simp at hn
  have hstd : ¬ Standard opts (pkgs i) := fun hx => by
    rw [normalize_standard (by rw [hw.2.2.1]; exact hdr) (by rw [hw.2.2.2.2]; exact standard_iff.1 hx)] at hn
    simp at hn
  cases hmod : (pkgs i).module with
  | none => exact absurd (.inl hmod) hstd
  | some m =>
    have hof : OfModule opts (pkgs i) m := ⟨hdr, hstd, hmod⟩
    have hse := standsFor_effective opts m
    have hloc : localStep env (standsFor opts m) = none := by
      unfold normalize standardStep at hn
      have hns : (isStandardLib (pkgs i) || (withVersion opts).stdlib) ≠ true := by rw [hw.2.2.2.2]; exact fun h => hstd (standard_iff.2 h)
      rw [if_neg (by rw [hw.2.2.1]; simp [hdr]), if_neg hns] at hn
      dsimp only at hn
      rw [hmod] at hn
      simp only [Option.getD_some, standsFor_eq] at hn
      split at hn
      · assumption
      · simp at hn
    obtain ⟨hl, hb⟩ := localStep_none hloc
    rw [isLocal_standsFor] at hl
    rw [hse.2.2] at hb
    refine ⟨i, m, hs.reachable, hof, hl, hb, fun hf => ?_⟩
    rw [loadDebug_eq]
    exact hm _ (((C106_told env fails opts (pkgs i) (hd i hs.reachable) hr).2 _).2 (.unparsable hof hl hb hf))

end Verif
