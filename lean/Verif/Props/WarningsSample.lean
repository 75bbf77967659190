import Verif.Props.Warnings
import Verif.Props.LogSample
import Verif.Props.PlacesSample
import Verif.Props.LoaderSample
import Verif.Props.Git
/-!
# Concrete cases meet the hypotheses of C104

The project of C97 (Props/LogSample.lean) with a dependency `gap` of which there are no types.
-/
namespace Verif.WarningsSample
open Verif Spec Index Warnings IndexSample

/-! ## A run -/

/-- A dependency that was listed but neither type-checked nor compiled. -/
def gap : Package :=
  { env := { LogSample.env with pkgPath := go!"gap", defs := fun _ => none, uses := fun _ => none }, name := go!"gap", files := [], implicits := []
    pkgNameOf := fun _ => none, imports := fun _ => none, defs := none, scope := none }

def all : GoMap Package := LogSample.project ++ [(go!"gap", gap)]

/-- The run warns of the package without types and of the import that could not be resolved. -/
theorem warned : indexWarned deps opts ord writer (.ok (LogSample.project, all)) = [.noTypes go!"gap", .importUnresolved 25] := by
  decide +kernel

/-- With `--skip-implementations` nobody asks for the types of the package. -/
theorem warned_skip : indexWarned deps { opts with skipImplementations := true } ord writer (.ok (LogSample.project, all)) = [.importUnresolved 25] := by
  decide +kernel

theorem in_all {k : Str} {p : Package} (h : (k, p) ∈ all) : (k = go!"m/c" ∧ p = LogSample.pkg) ∨ (k = go!"gap" ∧ p = gap) := by
  simpa [all, LogSample.project] using h

theorem types_gap : TypedTypes LogSample.objs gap where
  asked := by
    intro t ⟨ds, hds, ht⟩
    rcases hds with hds | hds <;> simp [gap] at hds
  scope := by
    intro ds hds t ht
    simp [gap] at hds

theorem typed : TypedProject deps LogSample.project all LogSample.objs where
  project_keyed := LogSample.typed.project_keyed
  all_keyed := ⟨by decide, fun k p h => by rcases in_all h with ⟨rfl, rfl⟩ | ⟨rfl, rfl⟩ <;> rfl⟩
  sub := fun k p h => by obtain ⟨rfl, rfl⟩ := LogSample.in_project h; simp [all, LogSample.project]
  packages := fun k p h => by
    obtain ⟨rfl, rfl⟩ := LogSample.in_project h
    exact
      { LogSample.package with
        files := fun f hf => by
          rw [LogSample.in_files hf]
          exact
            { parsed := { top_level := LogSample.parsed.top_level, distinct := by decide +kernel }
              declarations := LogSample.declarations
              looked_up := fun i hi r hr => of_decide_eq_true (lookups (P := fun _ r => decide (r ∈ LogSample.objs)) (by decide +kernel) i hi r hr)
              imports := LogSample.source.imports
              import_names := fun uid n a hm => (named_imports (by decide +kernel) uid n a hm).elim
              apart := by decide +kernel
              declared_at := fun i hi r hr => of_decide_eq_true (lookups (P := fun i d => decide (d.self.pos = i.pos)) (by decide +kernel) i hi r hr)
              no_package_value := fun i hi r hr => notPkg (lookups (P := fun _ o => match o.self.cls with | .pkgName _ => false | _ => true)
                (by decide +kernel) i hi r hr) }
        clauses := by
          have h : ∀ f ∈ LogSample.pkg.files, ∀ f' ∈ LogSample.pkg.files, ∀ i ∈ identsOf (fileEventsOf deps all LogSample.pkg f), i.pos ≠ f'.name.pos := by
            intro f hf f' hf'
            rw [LogSample.in_files hf, LogSample.in_files hf']; decide +kernel
          exact h
        fileSet := by
          intro f hf
          rw [LogSample.in_files hf]; exact ⟨rfl, by decide +kernel⟩ }
  types := fun k p h => by
    rcases in_all h with ⟨rfl, rfl⟩ | ⟨rfl, rfl⟩
    · exact LogSample.types_ok
    · exact types_gap
  apart := by decide +kernel
  files_apart := by decide +kernel
  coherent := LogSample.typed.coherent
  wellFormed := LogSample.wellFormed

theorem parsed : ParsedProject LogSample.project where
  places := by show List.Nodup _; decide +kernel
  specs := by
    intro p hp f hf tok specs doc hd ht
    obtain ⟨_, rfl⟩ := LogSample.in_project hp
    rw [LogSample.in_files hf] at hd
    simp only [LogSample.file, LogSample.decls, List.mem_cons, List.not_mem_nil, or_false, Node.genDecl.injEq, reduceCtorEq] at hd
    rcases ht with rfl | rfl <;> simp at hd

theorem extractor_ok : ExtractorOk deps all := by
  refine ⟨sampleLex_ok, ?_⟩
  intro k p h t ⟨ds, hds, ht⟩
  exfalso
  rcases in_all h with ⟨rfl, rfl⟩ | ⟨rfl, rfl⟩
  · rcases hds with hds | hds <;> simp only [LogSample.pkg, Option.some.injEq] at hds <;> subst hds <;> simp at ht
  · rcases hds with hds | hds <;> simp [gap] at hds

/-- C104 applies to the run. -/
example : ∃ (ps : List Package) (k : Nat), [Warning.noTypes go!"gap", .importUnresolved 25] = ps.map (fun p => Warning.noTypes p.path) ++
    ((((filesOf (sortedValues LogSample.project)).take k).flatMap fun e => unresolvedImports deps all e.1 e.2).map .importUnresolved) ∧
    ps.Perm [gap] := by
  obtain ⟨ps, k, h1, h2, _⟩ := (C104_index_warnings deps opts ord writer LogSample.project all LogSample.objs typed parsed extractor_ok ord_ok
    LogSample.no_packages).2 rfl
  exact ⟨ps, k, warned ▸ h1, h2⟩

/-- The project of the other samples is indexed without a warning. -/
example (w : Writer) : indexWarned deps opts ord w (.ok (IndexSample.project, IndexSample.all)) = [] :=
  C104_silent deps opts ord w IndexSample.project IndexSample.all IndexSample.objs IndexSample.typed IndexSample.parsed IndexSample.extractor_ok ord_ok
    (by
      have h : (IndexSample.objs.all fun r => match (entityOf r).cls with | .pkgName _ => false | _ => true) = true := by decide +kernel
      intro r hr q hq
      have := List.all_eq_true.1 h r hr
      simp only [hq] at this
      cases this)
    (by
      have h : (IndexSample.all.all fun e => !untyped e.2) = true := by decide +kernel
      intro k p hm
      simpa using List.all_eq_true.1 h (k, p) hm)
    (by
      have h : ∀ f ∈ pkgP.files, unresolvedImports deps IndexSample.all pkgP f = [] := by
        intro f hf
        simp only [pkgP, List.mem_cons, List.not_mem_nil, or_false] at hf
        rcases hf with rfl | rfl <;> decide +kernel
      intro k p hm f hf
      obtain ⟨_, rfl⟩ := in_project hm
      exact h f hf)

/-! ## A conflict -/

/-- Two functions at one position, as no file has them. -/
def twice : Node := .file ⟨0, go!"p", 1⟩
  [ .funcDecl [] ⟨1, go!"F", 10⟩ (.funcT [] [] []) [.block []] 5 20 [],
    .funcDecl [] ⟨2, go!"G", 10⟩ (.funcT [] [] []) [.block []] 5 20 [] ]

theorem twice_ok : FilesOk [twice] := by
  intro n ds h d hd
  simp only [List.mem_singleton, twice, Node.file.injEq] at h
  obtain ⟨rfl, rfl⟩ := h
  simp only [List.mem_cons, List.not_mem_nil, or_false] at hd
  rcases hd with rfl | rfl <;> exact ⟨⟨_, .func⟩, .funcT (by simp)⟩

theorem twice_warned : visitPackageSyntaxWarned Sample.env [twice] [] =
    [⟨10, go!"scip-go gomod m v1 `m/p`/F().", go!"scip-go gomod m v1 `m/p`/G()."⟩] := by
  decide +kernel

/-- The warning has a cause. -/
example : SharedPlace Sample.env [twice] ⟨10, go!"scip-go gomod m v1 `m/p`/F().", go!"scip-go gomod m v1 `m/p`/G()."⟩ :=
  C104_conflict_cause Sample.env [twice] twice_ok _ (by rw [twice_warned]; simp)

/-- Without a warning at a position, the declaration there is found. -/
example : ∃ t, visitPackageSyntax Sample.env [Sample.file] [] = some t ∧
    ∀ i ds, PackageDeclares Sample.env [Sample.file] i ds 66 → t.getSymbol 66 = some (Sample.env.fromDescriptors ds) :=
  (C104_conflict_reported Sample.env [Sample.file] Sample.filesOk 66 (by
    have h : visitPackageSyntaxWarned Sample.env [Sample.file] [] = [] := by decide +kernel
    rw [h]; simp)).2

/-! ## Before indexing -/

example : moduleNameWarned (ModuleSample.E none) go!"/w" [] = [.noGoMod] :=
  (C104_module_warning _ _ _).1.2 ⟨rfl, by decide +kernel⟩
example : moduleNameWarned (ModuleSample.E (some go!"module std")) go!"/w" [] = [] :=
  (C104_module_warning _ _ _).2.2 (.inr (by decide +kernel))

example : ∀ n, normalizeWarned LoaderSample.opts (LoaderSample.pkgs n) = [] := fun n =>
  (C104_loading_silent go!"/w" ⟨[], [], []⟩ ⟨none, none, none, none, none, false, 0, false, false, []⟩ LoaderSample.opts (LoaderSample.pkgs n)).2

end Verif.WarningsSample
