import Verif.Props.ProgramRelations
import Verif.Props.ProgramTypesSample
/-! # The program of `ProgramSample` meets the hypotheses of C86 and of C84 for the whole program -/
namespace Verif.ProgramSample
open Verif Spec Index IndexSample Program Loader.Spec

/-- C86 for this run: `m/p` is indexed as it is delivered, under the module `m v1`; of the packages of the standard library none is. -/
example : ∃ r project all, run = some r ∧ ProgramMaps delivered env options project all ∧ r = index deps (indexOpts options) ord writer (.ok (project, all)) := by
  obtain ⟨r, hr, hok, _⟩ := run_some
  obtain ⟨project, all, h1, _, _, h2⟩ := C86_indexed_as_delivered deps answer env order 20 ord options writer delivered objs go_program typed named
    (.inr absolute) dirs r hr (.inl hok)
  exact ⟨r, project, all, hr, h1, h2⟩

/-- C84 for this run: the type `S`, declared at 115 in `b.go`, is described with a relationship to the interface `I`. -/
example : ∃ r, run = some r ∧ ∃ path occs syms, .document path occs syms ∈ r.messages ∧
    ∃ s ∈ syms, s.1.symbol = go!"scip-go gomod m v1 `m/p`/S#" ∧ go!"scip-go gomod m v1 `m/p`/I#" ∈ s.2 := by
  obtain ⟨r, hr, hok, _⟩ := run_some
  refine ⟨r, hr, ?_⟩
  obtain ⟨project, all, hm, _, h2⟩ := C84_program deps answer env order 20 ord options writer delivered objs go_program typed named ord_ok
    (.inr absolute) dirs r hr (.inl hok)
  obtain ⟨h2, _⟩ := h2 hok
  -- the package `m/p` in the project
  obtain ⟨p, hp⟩ := hm.complete 0 reach0
  have hpr : (go!"m/p", p) ∈ project := (hm.project _ _).2 ⟨hp, 0, by simp [delivered], rfl⟩
  have hpe : p = pkgP := by
    rcases hm.chosen _ _ hp with ⟨i, ⟨hi, _⟩, hik, a, v, hid, rfl⟩ | ⟨hb, _⟩
    · have : i = 0 := by
        rcases same_path hi reach0 hik with h | ⟨_, h | h⟩
        · exact h
        · simp at h
        · simp at h
      subst this
      obtain ⟨q, m, n1, n2, _⟩ := identified 0 (by decide)
      obtain ⟨m', n4, n5⟩ := identity_of_normalize (dirs 0 hi) (.inr absolute) n1
      obtain ⟨rfl, rfl⟩ := C81_identity_unique n5 hid
      have e : (Loader.normalize env (Loader.withVersion (identityOpts options)) (delivered.info 0)).map (fun q => q.module.map (fun m => (m.path, m.version))) =
          some (some (go!"m", go!"v1")) := by decide +kernel
      rw [n1] at e
      simp only [Option.map_some, Option.some.injEq, n4, Prod.mk.injEq] at e
      rw [e.1, e.2, package0]
      rfl
    · exact absurd hb (by decide)
  subst hpe
  obtain ⟨path, occs, syms, hdoc, _, hrel⟩ := h2 pkgP fileB hpr (by simp [pkgP])
  refine ⟨path, occs, syms, hdoc, ?_⟩
  have hS : ProjectType project pkgP defS nS := ⟨hpr, by decide, ⟨_, rfl, by simp [defS]⟩, rfl, rfl⟩
  have hI : ProjectType project pkgP defI nI := ⟨hpr, by decide, ⟨_, rfl, by simp [defI]⟩, rfl, rfl⟩
  obtain ⟨s, h3, h4, _, h5⟩ := hrel.types defS nS hS (by decide)
  refine ⟨s, h3, by rw [h4]; decide +kernel, (h5 _).2 ⟨rfl, true, pkgP, defI, nI,
    ⟨.inl rfl, hS, rfl, hI, rfl, by simp [nI], S_implements_I, .inr rfl⟩, by decide +kernel⟩⟩

end Verif.ProgramSample
