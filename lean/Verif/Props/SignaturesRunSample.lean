import Verif.Props.SignaturesRun
import Verif.Props.CommentsRunSample
import Verif.Props.WholeRunSample
/-! # The sample project of `IndexSample` meets the hypotheses of C79 and C80 for whole runs -/
namespace Verif.IndexSample
open Verif Verif.Spec Index Ts Ts.Spec Sign Sign.Spec
set_option autoImplicit false

theorem viewsP : Views viewP := by
  intro o
  refine ⟨rfl, ?_⟩
  unfold viewP
  cases h : o.self.cls with
  | pkgName p => exact .inl ⟨p, rfl, rfl⟩
  | _ => exact .inr ⟨by simp, by simp⟩

/-- `func F()` -/
def entityF : Entity := .function none go!"F" [] (.mk .nil false .nil)

/-- C79: `F` is described with a signature, which is that of `func F()` only. -/
example (path : Str) (occs : List Occurrence) (syms : List (SymInfo × List Str)) (hm : run.messages[1]? = some (.document path occs syms)) :
    ∃ s ∈ syms, ∃ t, s.1.symbol = go!"scip-go gomod m v1 `m/p`/F()." ∧ s.1.signature = some t := by
  have hs : pkgP.env.fromDescriptors [⟨go!"m/p", .nspace⟩, ⟨go!"F", .method⟩] = go!"scip-go gomod m v1 `m/p`/F()." := by decide +kernel
  rw [← hs]
  have hw : WellFormedEntity [] entityF := by
    refine ⟨by simp, by unfold Identifier; decide +kernel, by simp [WellFormedTParams], ?_⟩
    simp [WellFormedS, WellFormedP]
  have hd : Describes (inPackage (viewP FileSample.objF).pkg) (viewP FileSample.objF) entityF := .function (v := viewP FileSample.objF) rfl
  obtain ⟨s, hs, _, _, t, _, h1, _, h2, _⟩ := C79_whole_run_partial deps opts ord writer project all objs typed ord_ok 0 0 (pkgP, fileA) (pkgP, fileA)
    rfl rfl path path occs occs syms syms hm hm distinct distinct (fun _ => none) AnonSample.quote AnonSample.unquote AnonSample.quotes viewP rfl rfl
    identF identF (by decide +kernel) (by decide +kernel) _ _ only_F only_F FileSample.objF FileSample.objF (by decide +kernel) (by decide +kernel) []
    entityF entityF hd hd hw hw trivial trivial
  exact ⟨s, hs, t, h1, h2⟩

/-- The parameter `v` of `G`. -/
def identV : Ident := ⟨17, go!"v", 162⟩

theorem local_V : LocalIdent pkgP identV := by
  refine ⟨by decide, .inr ⟨by decide +kernel, ?_⟩⟩
  have hsome : (tableFor pkgP (packageSymbol pkgP)).isSome = true := by decide +kernel
  obtain ⟨t, htab⟩ := Option.isSome_iff_exists.1 hsome
  have hnone : ((tableFor pkgP (packageSymbol pkgP)).bind (·.get 162)).isSome = false := by decide +kernel
  rw [htab] at hnone
  intro h
  have := (table_iff (e := (pkgP, fileB)) typed (List.mem_of_getElem? (i := 1) rfl) htab (i := identV) (by decide +kernel)).2 h
  rw [Option.bind_some] at hnone
  exact absurd this (by rw [show identV.pos = 162 from rfl, hnone]; decide)

/-- C80: the parameter `v` is described once, with its signature. -/
example (path : Str) (occs : List Occurrence) (syms : List (SymInfo × List Str)) (hm : run.messages[2]? = some (.document path occs syms)) :
    ∃ k s, (syms.map (·.1)).filter (·.symbol == localName k) = [s] ∧ s.displayName = go!"v" ∧ s.signature = some go!"var v int" := by
  have hmem : identV ∈ localIdents deps all pkgP fileB := List.mem_filter.2 ⟨by decide +kernel, by simpa using local_V⟩
  obtain ⟨k, hk⟩ := List.getElem?_of_mem hmem
  obtain ⟨s, hs, _, h1, _⟩ := C80_whole_run deps opts ord writer project all objs typed ord_ok 1 (pkgP, fileB) rfl path occs syms hm AnonSample.quote
    viewP viewsP rfl k identV hk
  obtain ⟨d, hd, hn, _, hsig⟩ := h1 (by unfold SwitchIdent; decide)
  have : d = objV := by
    have h : pkgP.env.defs identV.uid = some objV := by decide +kernel
    rw [h] at hd; simpa using hd.symm
  subst this
  refine ⟨k, s, hs, hn, hsig.trans ?_⟩
  decide +kernel

/-- C80: the variable of the type switch is described without signature. -/
example (path : Str) (occs : List Occurrence) (syms : List (SymInfo × List Str)) (hm : run.messages[2]? = some (.document path occs syms)) :
    ∃ k s, (syms.map (·.1)).filter (·.symbol == localName k) = [s] ∧ s.signature = none := by
  have hmem : identX ∈ localIdents deps all pkgP fileB := List.mem_filter.2 ⟨by decide +kernel, by simpa using local_X⟩
  obtain ⟨k, hk⟩ := List.getElem?_of_mem hmem
  obtain ⟨s, hs, _, _, h1⟩ := C80_whole_run deps opts ord writer project all objs typed ord_ok 1 (pkgP, fileB) rfl path occs syms hm AnonSample.quote
    viewP viewsP rfl k identX hk
  exact ⟨k, s, hs, (h1 (by unfold SwitchIdent; decide)).1⟩

end Verif.IndexSample
