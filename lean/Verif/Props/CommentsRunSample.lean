import Verif.Props.CommentsRun
import Verif.Props.EndToEndSample
/-! # The sample project of `IndexSample` meets the hypotheses of C16 and C68 for whole runs -/
namespace Verif.IndexSample
open Verif Spec Index

theorem distinct : DistinctIdents pkgP := by
  unfold DistinctIdents
  decide +kernel

theorem only_F : OnlyDeclares pkgP identF [⟨go!"m/p", .nspace⟩, ⟨go!"F", .method⟩] :=
  ⟨⟨_, _, List.mem_map.2 ⟨fileA, by simp [pkgP], rfl⟩, .func (d := FileSample.decls[1]) (by simp [fileA, FileSample.decls]) (.name .func)⟩,
    declares_F⟩

theorem documented_F : DocumentedAs fileA.decls identF [go!"Deprecated: use G."] :=
  .func (recv := []) (name := identF) (typ := .funcT [] [] []) (body := [.block FileSample.body]) (a := 35) (b := 90) (doc := go!"Deprecated: use G.")
    (by simp [fileA, FileSample.decls, identF])

/-- C68: the comment of `F`. -/
example (path : Str) (occs : List Occurrence) (syms : List (SymInfo × List Str)) (hm : run.messages[1]? = some (.document path occs syms)) :
    ∃ s ∈ syms, s.1.symbol = go!"scip-go gomod m v1 `m/p`/F()." ∧ s.1.displayName = go!"F" ∧ s.1.documentation = [go!"Deprecated: use G."] := by
  have hs : pkgP.env.fromDescriptors [⟨go!"m/p", .nspace⟩, ⟨go!"F", .method⟩] = go!"scip-go gomod m v1 `m/p`/F()." := by decide +kernel
  rw [← hs]
  exact C68_whole_run_partial deps opts ord writer project all objs typed ord_ok 0 (pkgP, fileA) rfl path occs syms hm distinct identF
    (by decide +kernel) _ only_F _ documented_F

/-- C16: `F` is deprecated, so its declaration and its call in the other file are reported. -/
example (path₁ path₂ : Str) (occs₁ occs₂ : List Occurrence) (syms₁ syms₂ : List (SymInfo × List Str))
    (hm₁ : run.messages[1]? = some (.document path₁ occs₁ syms₁)) (hm₂ : run.messages[2]? = some (.document path₂ occs₂ syms₂)) :
    (∃ x ∈ occs₁, x.isDef = true ∧ x.range = identSpan (sourceEnv deps pkgP) identF ∧ x.deprecated = true) ∧
    (∃ x ∈ occs₂, x.isDef = false ∧ x.range = identSpan (sourceEnv deps pkgP) useF ∧ x.deprecated = true) := by
  obtain ⟨⟨x, hx, x1, x2, _, x3⟩, ⟨y, hy, y1, y2, _, y3⟩⟩ := C16_whole_run deps opts ord writer project all objs typed ord_ok 0 1 (pkgP, fileA) (pkgP, fileB) rfl rfl
    path₁ path₂ occs₁ occs₂ syms₁ syms₂ hm₁ hm₂ distinct identF useF (by decide +kernel) (by decide +kernel) (by decide) (by decide)
    (by unfold SwitchIdent; decide) (by unfold SwitchIdent; decide) _ only_F FileSample.objF FileSample.objF (by decide +kernel) (by decide +kernel) rfl (by decide) (by decide)
    (by decide) _ documented_F
  have hdep : SaysDeprecated [go!"Deprecated: use G."] := ⟨_, List.mem_singleton.2 rfl, [], go!" use G.", rfl, .inl rfl⟩
  exact ⟨⟨x, hx, x1, x2, x3.2 hdep⟩, ⟨y, hy, y1, y2, y3.2 hdep⟩⟩

/-- Only reported occurrences of declared entities: the hypothesis of the converse. -/
example : ∀ p, (p.path, p) ∈ project → DistinctIdents p := by
  intro p hp
  simp only [project, List.mem_singleton, Prod.mk.injEq] at hp
  rw [hp.2]; exact distinct

end Verif.IndexSample
