import Verif.Props.ContentDetermined
import Verif.Props.CommentsRunSample
import Verif.Props.WholeRunSample
import Verif.Props.ProgramRelationsSample
/-! # The samples meet the hypotheses of C87 -/
namespace Verif.IndexSample
open Verif Spec Index

theorem all_distinct : ∀ p, (p.path, p) ∈ project → DistinctIdents p := by
  intro p hp
  simp only [project, List.mem_singleton, Prod.mk.injEq] at hp
  rw [hp.2]; exact distinct

theorem run_ok : run.outcome = .ok := (C74_never_crashes deps opts ord writer project all objs typed extractor_ok ord_ok).2 (fun _ _ => rfl)

theorem run_index : IndexOf deps opts project all run.messages :=
  C87_index deps opts ord writer project all objs typed ord_ok namedTypes all_distinct no_packages run_ok

/-- Everything declared in the sample has its own comment, or none. -/
theorem documented_all (x : Ident × List Descriptor × Nat) (h : x ∈ declared) : ∃ f ∈ pkgP.files, ∃ docs, DocumentedAs f.decls x.1 docs := by
  simp only [declared, List.mem_cons, List.not_mem_nil, or_false] at h
  rcases h with rfl | rfl | rfl | rfl | rfl | rfl
  · exact ⟨fileA, by simp [pkgP], _, documented_F⟩
  · exact ⟨fileB, by simp [pkgP], _, .typ (List.mem_of_getElem (i := 0) (h := by decide) rfl) (List.mem_singleton.2 rfl)⟩
  · exact ⟨fileB, by simp [pkgP], _, .func (List.mem_of_getElem (i := 1) (h := by decide) rfl)⟩
  · exact ⟨fileB, by simp [pkgP], _, .typ (List.mem_of_getElem (i := 2) (h := by decide) rfl) (List.mem_singleton.2 rfl)⟩
  · refine ⟨fileB, by simp [pkgP], _, .field (pos := 155) (names := [⟨15, go!"M", 155⟩]) (typ := .funcT [] [] []) (own := []) (comment := [])
      (List.mem_of_getElem (i := 2) (h := by decide) rfl) ?_ (.inl (List.mem_singleton.2 rfl))⟩
    refine .child (c := .typeSpec ⟨14, go!"I", 140⟩ [] (.ifaceT [.field 155 [⟨15, go!"M", 155⟩] (.funcT [] [] []) [] []]) []) (by simp [fileB, declsB, children]) ?_
    refine .child (c := .ifaceT [.field 155 [⟨15, go!"M", 155⟩] (.funcT [] [] []) [] []]) (by simp [children]) ?_
    exact .child (by simp [children]) (.refl _)
  · exact ⟨fileB, by simp [pkgP], _, .func (List.mem_of_getElem (i := 3) (h := by decide) rfl)⟩

/-- Nothing in the sample is ambiguous. -/
theorem unambiguous : Unambiguous project where
  once := by
    intro p hp q i ds i' ds' h h'
    obtain ⟨_, rfl⟩ := in_project hp
    have key : ∀ x ∈ declared, ∀ y ∈ declared, x.2.2 = y.2.2 → x = y := by decide +kernel
    have := key _ (declares_all i ds q h) _ (declares_all i' ds' q h') rfl
    simp only [Prod.mk.injEq, and_true] at this
    exact this
  documented := by
    intro p hp q i ds h
    obtain ⟨_, rfl⟩ := in_project hp
    exact documented_all _ (declares_all i ds q h)
  clause := by
    intro p hp f hf i ds h
    obtain ⟨_, rfl⟩ := in_project hp
    simp only [pkgP, List.head?_cons, Option.some.injEq] at hf
    subst hf
    have key : ∀ x ∈ declared, x.2.2 ≠ 8 := by decide +kernel
    exact key _ (declares_all i ds _ h) rfl
  packages := by
    intro p p' hp hp' _ _ _ _ _
    obtain ⟨_, rfl⟩ := in_project hp
    obtain ⟨_, rfl⟩ := in_project hp'
    rfl
  switches := by
    intro p hp
    obtain ⟨_, rfl⟩ := in_project hp
    have : ∀ x ∈ [objX1, objX2], ∀ y ∈ [objX1, objX2], x.self.name = y.self.name ∧ kindForObject (some x.self) = kindForObject (some y.self) := by
      intro x hx y hy
      simp only [List.mem_cons, List.not_mem_nil, or_false] at hx hy
      rcases hx with rfl | rfl <;> rcases hy with rfl | rfl <;> exact ⟨rfl, rfl⟩
    exact fun x hx y hy _ => this x hx y hy

/-- C87: any index of the sample is what the run has written. -/
example (ms : List Message) (h : IndexOf deps opts project all ms) : SameIndex run.messages ms :=
  C87_determined typed namedTypes unambiguous _ _ run_index h

/-- And the specification excludes something: an index without the last document is none. -/
example : ¬ IndexOf deps opts project all (run.messages.take 2) := by
  intro h
  obtain ⟨md, ds, ds', es, es', h1, h2, h3, h4, h5⟩ := C87_determined typed namedTypes unambiguous _ _ run_index h
  have hl : run.messages.length = 4 := by
    have := congrArg List.length messages
    simpa using this
  have l1 := congrArg List.length h1
  have l2 := congrArg List.length h2
  simp only [List.length_cons, List.length_append, List.length_take, hl] at l1 l2
  have := h3.length_eq
  have := h4.length_eq
  omega

end Verif.IndexSample

namespace Verif.ProgramSample
open Verif Spec Index IndexSample Program Loader.Spec

/-- C87 for the whole program. -/
example : ∃ r project all, run = some r ∧ ProgramMaps delivered env options project all ∧ IndexOf deps (indexOpts options) project all r.messages := by
  obtain ⟨r, hr, hok, _⟩ := run_some
  obtain ⟨project, all, h1, _, h2⟩ := C87_program deps answer env order 20 ord options writer delivered objs go_program typed named ord_ok
    (fun i hi => by rw [ProgramSample.in_project hi]; exact distinct) no_packages (.inr absolute) dirs r hr (.inl hok)
  exact ⟨r, project, all, hr, h1, (h2 hok).1⟩

end Verif.ProgramSample
