import Verif.Props.WholeRun
import Verif.Props.EndToEndSample
/-! # The sample project of `IndexSample` meets the hypotheses of the theorems of `WholeRun` -/
namespace Verif.IndexSample
open Verif Spec Index

/-- No object stands for an instantiation of a package name. -/
theorem no_packages : ∀ r ∈ objs, ∀ q, (entityOf r).cls ≠ .pkgName q := by
  have h : (objs.all fun r => match (entityOf r).cls with | .pkgName _ => false | _ => true) = true := by decide +kernel
  intro r hr q hq
  have := List.all_eq_true.1 h r hr
  simp only [hq] at this
  cases this

def identX : Ident := ⟨19, go!"x", 170⟩
def useX : Ident := ⟨21, go!"x", 180⟩

theorem local_X : LocalIdent pkgP identX := ⟨by decide, .inl ⟨objX1, by simp [pkgP], rfl⟩⟩

theorem not_switch {i : Ident} (h : i.pos ≠ 170) : ¬ SwitchIdent pkgP i := by
  rintro ⟨x, hx, hp⟩
  simp only [pkgP, List.mem_cons, List.not_mem_nil, or_false] at hx
  rcases hx with rfl | rfl <;> exact h hp.symm

/-- C10: the variable `x` of the type switch in the second file and its use get the same local symbol. -/
example (path : Str) (occs : List Occurrence) (syms : List (SymInfo × List Str))
    (hm : run.messages[2]? = some (.document path occs syms)) :
    ∃ k, (∃ x ∈ occs, x.isDef = true ∧ x.range = [0, 170, 171] ∧ x.symbol = localName k) ∧
      (∃ x ∈ occs, x.isDef = false ∧ x.range = [0, 180, 181] ∧ x.symbol = localName k) := by
  obtain ⟨k, _, h1, h2⟩ := C10_whole_run deps opts ord writer project all objs typed ord_ok 1 (pkgP, fileB) rfl path occs syms hm
    ((identsOf (fileEventsOf deps all pkgP fileB)).take 8) [⟨20, go!"v", 174⟩] [⟨22, go!"F", 186⟩] identX useX (by decide +kernel) local_X
    (by decide) (not_switch (by decide)) objX1 rfl rfl
  have e1 : identSpan (sourceEnv deps pkgP) identX = [0, 170, 171] := by decide +kernel
  have e2 : identSpan (sourceEnv deps pkgP) useX = [0, 180, 181] := by decide +kernel
  rw [← e1, ← e2]
  exact ⟨k, h1, h2⟩

def usePrintln : Ident := ⟨4, go!"Println", 64⟩

/-- C13: the call of `fmt.Println` in the first file is a reference to the symbol of the dependency. -/
example (path : Str) (occs : List Occurrence) (syms : List (SymInfo × List Str))
    (hm : run.messages[1]? = some (.document path occs syms)) :
    ∃ x ∈ occs, x.isDef = false ∧ x.range = identSpan (sourceEnv deps pkgP) usePrintln ∧
      x.symbol = go!"scip-go gomod std go1 fmt/Println()." := by
  obtain ⟨parts, hp, hl, h⟩ := C13_whole_run deps opts ord writer project all objs typed ord_ok no_packages 0 (pkgP, fileA) rfl path occs syms hm
  have hk : (fileEventsOf deps all pkgP fileA)[4]? = some (.ident usePrintln none) := by rfl
  have hlt := (List.getElem?_eq_some_iff.1 hk).1
  have hlt' : 4 < parts.length := hl ▸ hlt
  have hpk := List.getElem?_eq_getElem hlt'
  have hev : IdentRefs deps project all (pkgP, fileA) _ usePrintln parts[4] := h 4 _ _ hk hpk
  have hnot : ∀ s, ¬ NamedInProject project go!"fmt" FileSample.objPrintln s := by
    rintro s ⟨p, hp, hv, _⟩
    obtain ⟨_, rfl⟩ := in_project hp
    revert hv
    decide
  have hds : DependencyPath deps.scopes go!"fmt" (entityOf FileSample.objPrintln) [⟨go!"fmt", .nspace⟩, ⟨go!"Println", .method⟩] := .func rfl
  have hnamed : NamedBy deps project all FileSample.objPrintln go!"scip-go gomod std go1 fmt/Println()." :=
    ⟨by decide, by decide, go!"fmt", rfl, by decide, .inr ⟨hnot, pkgFmt, _, by simp [all], hds, by decide +kernel⟩⟩
  obtain ⟨sym, dep, hos, hn⟩ := hev.toEntity (by decide) (not_switch (by decide)) FileSample.objPrintln rfl (by
    intro l hl _
    have : l ∈ identsOf (fileEventsOf deps all pkgP fileA) := (List.mem_filter.1 hl).1
    have all_ : ((identsOf (fileEventsOf deps all pkgP fileA)).all fun l => decide (l.pos ≠ 900)) = true := by decide +kernel
    exact of_decide_eq_true (List.all_eq_true.1 all_ l this)) ⟨_, hnamed⟩
  have hsym : sym = go!"scip-go gomod std go1 fmt/Println()." := by
    obtain ⟨_, _, path', hpath, _, hc⟩ := hn
    cases hpath
    rcases hc with hc | ⟨_, p, ds, hp, hd, rfl⟩
    · exact absurd hc (hnot _)
    · rcases in_all hp with ⟨_, rfl⟩ | ⟨h, _⟩ | ⟨h, _⟩
      · cases hd with
        | func _ => decide +kernel
        | typ h => cases h
        | const h => cases h
        | var h => cases h
        | method h => cases h
        | field h => cases h
      · exact absurd h (by decide)
      · exact absurd h (by decide)
  refine ⟨⟨identSpan (sourceEnv deps pkgP) usePrintln, sym, false, none, dep⟩, ?_, rfl, rfl, hsym⟩
  refine List.mem_of_mem_filter (p := fun x : Occurrence => !x.isDef) ?_
  rw [hp]
  exact List.mem_flatten.2 ⟨_, List.mem_of_getElem? hpk, by rw [hos]; simp⟩

/-- C09, C12: the second file has two local declarations; its document has the definitions of the clause and of eight identifiers. -/
example (path : Str) (occs : List Occurrence) (syms : List (SymInfo × List Str))
    (hm : run.messages[2]? = some (.document path occs syms)) :
    (localIdents deps all pkgP fileB).length = 2 ∧ (declaringIdents deps all pkgP fileB).length = 8 - 1 ∧ identX ∈ localIdents deps all pkgP fileB := by
  have h9 := congrArg List.length (C09_whole_run deps opts ord writer project all objs typed ord_ok 1 (pkgP, fileB) rfl path occs syms hm)
  have h12 := congrArg List.length (C12_whole_run deps opts ord writer project all objs typed ord_ok 1 (pkgP, fileB) rfl path occs syms hm)
  have hc : (run.messages[2]?).map (fun m => match m with
      | .document _ os _ => ((os.filter (fun x => x.isDef && isLocalSymbol x.symbol)).length, (os.filter (·.isDef)).length)
      | _ => (0, 0)) = some (2, 8) := by decide +kernel
  rw [hm] at hc
  simp only [Option.map_some, Option.some.injEq, Prod.mk.injEq] at hc
  simp only [List.length_map, List.length_zipIdx, List.length_cons] at h9 h12
  refine ⟨by omega, by omega, List.mem_filter.2 ⟨by decide +kernel, by simpa using local_X⟩⟩

/-- C17: `F` of the first file carries the range of its declaration. -/
example (path : Str) (occs : List Occurrence) (syms : List (SymInfo × List Str))
    (hm : run.messages[1]? = some (.document path occs syms)) :
    ∃ x ∈ occs, x.isDef = true ∧ x.range = [0, 40, 41] ∧ x.enclosing = some [0, 35, 90] := by
  have h := (C17_whole_run deps opts ord writer project all objs typed ord_ok 0 (pkgP, fileA) rfl path occs syms hm).2
    [] ⟨1, go!"F", 40⟩ (.funcT [] [] []) [.block FileSample.body] 35 90 go!"Deprecated: use G." (by simp [fileA, FileSample.decls]) (by decide)
    (not_switch (by decide)) (by decide +kernel)
  have e1 : identSpan (sourceEnv deps pkgP) ⟨1, go!"F", 40⟩ = [0, 40, 41] := by decide +kernel
  have e2 : span (pkgP.env.position 35) (pkgP.env.position 90) = [0, 35, 90] := by decide +kernel
  rw [e1, e2] at h
  exact h

end Verif.IndexSample
