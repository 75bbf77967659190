import Verif.Props.Normalize
/-!
# Sample load for the loader theorems

Package 0 `ex.com/m/p` (project, unversioned) imports 2 `fmt` (no module), 3 `dep.org/d` (pseudo-version) and 4 `rep.org/r` (replaced by a
local directory); 1 is the test variant of 0 with one more file.  3 imports 4 and 4 imports 3 (a cycle), 5 has build metadata.
-/
namespace Verif.LoaderSample
open Verif.Loader Verif.Loader.Spec Semver.Spec Verif.Spec

def opts : Opts := ⟨go!"/w/m", go!"v1.2.3", go!"ex.com/m", false, go!"go1.24", false⟩

def mod (path version dir goMod : String) : ModInfo := ⟨⟨path.toList, version.toList, dir.toList, goMod.toList⟩, none⟩

def pkgs : Nat → PkgSt
  | 0 => ⟨go!"ex.com/m/p", some (mod "ex.com/m" "" "/w/m" "/w/m/go.mod")⟩
  | 1 => ⟨go!"ex.com/m/p", some (mod "ex.com/m" "" "/w/m" "/w/m/go.mod")⟩
  | 2 => ⟨go!"fmt", none⟩
  | 3 => ⟨go!"dep.org/d", some (mod "dep.org/d" "v0.0.0-20190718012654-fb15b899a751" "/c/d" "/c/d/go.mod")⟩
  | 4 => ⟨go!"rep.org/r", some { mod "rep.org/r" "v1.0.0" "/c/r" "" with replace := some ⟨go!"./r", [], go!"/w/m/r", go!"/w/m/r/go.mod"⟩ }⟩
  | 5 => ⟨go!"inc.org/i", some (mod "inc.org/i" "v2.0.0+incompatible" "/c/i" "")⟩
  | _ => ⟨go!"far.org/f", some (mod "far.org/f" "" "/far" "")⟩

def graph : Graph where
  files := fun i => if i = 1 then 2 else 1
  imports := fun i => if i = 0 ∨ i = 1 then [2, 3, 4] else if i = 3 then [4, 5, 6] else if i = 4 then [3] else []
  roots := [0, 1]

def env : Env := ⟨fun f => if f = go!"/w/m/r/go.mod" then .parsed go!"rep.org/r2" [] else .unreadable, fun _ => none⟩

def order : Nat → Nat → List Nat := fun _ => graph.imports

theorem order_valid : ValidOrder graph order := fun _ _ => .refl _
theorem paths_once : PathsOnce opts pkgs := by
  refine .inr (.inl ?_)
  intro i h
  have : ∀ q : PkgSt, q.path.head? ≠ some 's' → ¬ go!"std/" <+: q.path := by
    rintro q hq ⟨t, ht⟩; rw [← ht] at hq; simp at hq
  revert h
  apply this
  unfold pkgs
  split <;> decide

/-- The load succeeds (also with the cycle 3, 4), and the packages get the expected identities. -/
theorem sample_load : ∃ l, loadPackages env opts (some (graph, pkgs)) order 20 = some (some l) ∧
    l.st.all.get go!"ex.com/m/p" = some (.loaded 1) ∧ l.project.get go!"ex.com/m/p" = some (some (.loaded 1)) ∧
    l.st.all.get go!"fmt" = some (.loaded 2) ∧ l.st.all.get go!"dep.org/d" = some (.loaded 3) ∧
    l.st.all.get go!"rep.org/r" = some (.loaded 4) ∧ l.st.all.get go!"inc.org/i" = some (.loaded 5) ∧
    l.st.all.get go!"far.org/f" = some (.loaded 6) ∧
    ([1, 2, 3, 4, 5, 6].map fun i => (l.st.pkgs i).module.map fun m => (m.path, m.version)) =
      [some (go!"ex.com/m", go!"v1.2.3"), some (go!"github.com/golang/go/src", go!"go1.24"), some (go!"dep.org/d", go!"fb15b899a751"),
        some (go!"rep.org/r2", go!"v1.2.3"), some (go!"inc.org/i", go!"v2.0.0"), some (go!"far.org/f", go!".")] := by
  refine ⟨((loadPackages env opts (some (graph, pkgs)) order 20).getD none).getD ⟨initial pkgs, []⟩, ?_, ?_⟩
  · have : ((loadPackages env opts (some (graph, pkgs)) order 20).isSome && ((loadPackages env opts (some (graph, pkgs)) order 20).getD none).isSome) = true := by
      decide +kernel
    revert this
    generalize loadPackages env opts (some (graph, pkgs)) order 20 = o
    rcases o with _ | _ | _ <;> simp
  · decide +kernel

/-- The pseudo-version of package 3. -/
theorem sample_pseudo : PseudoVersion go!"v0.0.0-20190718012654-fb15b899a751" go!"fb15b899a751" := by
  have h : Semver.isPseudoVersion go!"v0.0.0-20190718012654-fb15b899a751" = true := by decide +kernel
  obtain ⟨rev, hr⟩ := Semver.isPseudo_iff.1 h
  have h2 := Semver.rev_of hr
  have h3 : Semver.pseudoVersionRev go!"v0.0.0-20190718012654-fb15b899a751" = some go!"fb15b899a751" := by decide +kernel
  rw [h3] at h2
  simp only [Option.some.injEq] at h2
  rw [h2]; exact hr

/-- Package 3 meets the hypotheses of C39. -/
example : Userland opts (pkgs 3) (mod "dep.org/d" "v0.0.0-20190718012654-fb15b899a751" "/c/d" "/c/d/go.mod") :=
  ⟨rfl, rfl, rfl, by decide⟩
example : ComesWithVersion env (effective (mod "dep.org/d" "v0.0.0-20190718012654-fb15b899a751" "/c/d" "/c/d/go.mod"))
    go!"v0.0.0-20190718012654-fb15b899a751" :=
  ComesWithVersion.delivered (e := effective (mod "dep.org/d" "v0.0.0-20190718012654-fb15b899a751" "/c/d" "/c/d/go.mod"))
    fun h => by obtain ⟨⟨t, ht⟩, _⟩ := h; exact absurd ht (by simp [effective, mod])

/-- Package 4 meets the hypotheses of C48 for replaced modules. -/
example : ∃ m r, Userland opts (pkgs 4) m ∧ m.replace = some r ∧ ComesWithVersion env r [] :=
  ⟨_, ⟨go!"./r", [], go!"/w/m/r", go!"/w/m/r/go.mod"⟩, ⟨rfl, rfl, rfl, by decide⟩, rfl,
    ComesWithVersion.delivered (e := ⟨go!"./r", [], go!"/w/m/r", go!"/w/m/r/go.mod"⟩) fun _ => .inr ⟨go!"rep.org/r2", rfl⟩⟩

/-- Package 1 belongs to the project (C48), package 6 does not. -/
example : BelongsToProject env opts go!"/w/m" go!"ex.com/m" := .inr (.inl rfl)
example : ¬ BelongsToProject env opts go!"/far" go!"far.org/f" := by
  rintro (⟨_, _, h⟩ | h | ⟨r, h, _⟩)
  · have e1 : directory go!"/far" = [go!"far"] := by decide +kernel
    have e2 : directory opts.moduleRoot = [go!"w", go!"m"] := by decide +kernel
    rw [e1, e2] at h
    unfold AtOrAbove at h
    simp at h
  · exact absurd h (by decide)
  · simp [env] at h

/-- The graph is finite. -/
theorem sample_finite : FiniteGraph graph := by
  refine ⟨[0, 1, 2, 3, 4, 5, 6], fun i h => ?_⟩
  induction h with
  | root h => simp [graph] at h; rcases h with rfl | rfl <;> simp
  | @imported i j _ hj ih =>
    simp only [graph] at hj
    split at hj
    · simp at hj; rcases hj with rfl | rfl | rfl <;> simp
    · split at hj
      · simp at hj; rcases hj with rfl | rfl | rfl <;> simp
      · split at hj
        · simp at hj; subst hj; simp
        · simp at hj

/-- Nested and not nested directories (C47). -/
example : Filepath.isNestedDir go!"/a/b" go!"/a/b/../b/c" = true ∧ Filepath.isNestedDir go!"/a/b" go!"/a/bc" = false := by decide +kernel

/-- Package 4 meets the hypotheses of C38: it is normalised to the module its go.mod file names. -/
example : ∃ q mq, normalize env opts (pkgs 4) = some q ∧ q.module = some mq ∧ mq.path = go!"rep.org/r2" ∧ mq.path ≠ go!"std" ∧
    ¬ go!"std/" <+: q.path ∧ reduceVersion opts.moduleVersion = opts.moduleVersion :=
  ⟨_, _, rfl, rfl, rfl, by decide +kernel, by decide +kernel, by decide +kernel⟩

end Verif.LoaderSample
