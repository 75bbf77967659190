import Verif.Props.DebugLoad
import Verif.Props.DebugRun
import Verif.Props.LoaderSample
import Verif.Props.WarningsSample
/-!
# Concrete cases meet the hypotheses of C106

The load of Props/LoaderSample.lean, and the project of C97 with two dependencies: `dep` is known from export data and has a type `T` with a method that belongs
to the package `gone`, which was not loaded; `src` is known from its source.
-/
namespace Verif.DebugSample
open Verif Spec Index Debug IndexSample

/-! ## The load -/

/-- Package 4 is replaced by a directory, whose go.mod file names the module `rep.org/r2`; nothing is known of the version of package 6. -/
theorem loads : loadDebug LoaderSample.env (fun _ => false) LoaderSample.opts (some (LoaderSample.graph, LoaderSample.pkgs)) LoaderSample.order 20 =
    [.pathReplaced go!"./r" go!"rep.org/r2", .versionUnknown go!"far.org/f" go!"ex.com/m"] := by decide +kernel

/-- With a go.mod file that cannot be parsed, loading fails, and the file is told. -/
theorem loads_broken :
    let env : Loader.Env := { LoaderSample.env with readMod := fun f => if f = go!"/w/m/r/go.mod" then .broken else .unreadable }
    (Loader.loadPackages env LoaderSample.opts (some (LoaderSample.graph, LoaderSample.pkgs)) LoaderSample.order 20).isSome = true ∧
    loadDebug env (fun _ => true) LoaderSample.opts (some (LoaderSample.graph, LoaderSample.pkgs)) LoaderSample.order 20 =
      [.goModUnparsable go!"/w/m/r/go.mod"] := by decide +kernel

/-- A go.mod file that also has a version, and one that cannot be read. -/
example :
    let env : Loader.Env := { LoaderSample.env with readMod := fun f => if f = go!"/w/m/r/go.mod" then .parsed go!"rep.org/r2" go!"v3.0.0" else .unreadable }
    normalizeDebug env (fun _ => false) LoaderSample.opts (LoaderSample.pkgs 4) =
      [.pathReplaced go!"./r" go!"rep.org/r2", .versionReplaced go!"v1.2.3" go!"v3.0.0"] := by decide +kernel
example : normalizeDebug ⟨fun _ => .unreadable, fun _ => none⟩ (fun _ => false) LoaderSample.opts (LoaderSample.pkgs 4) =
    [.goModUnreadable go!"/w/m/r/go.mod"] := by decide +kernel

theorem dirOk : ∀ i, Loader.Spec.DirOk LoaderSample.opts (LoaderSample.pkgs i) := by
  intro i
  rcases i with _ | _ | _ | _ | _ | _ | _ <;>
    (intro m hm; simp only [LoaderSample.pkgs, Option.some.injEq, reduceCtorEq] at hm; try (subst hm; right; rfl))

/-- C106 applies to the load. -/
example : ∃ i, Loader.Spec.Reachable LoaderSample.graph i ∧
    Told LoaderSample.env (fun _ => false) LoaderSample.opts (LoaderSample.pkgs i) (.versionUnknown go!"far.org/f" go!"ex.com/m") :=
  (C106_load LoaderSample.env (fun _ => false) LoaderSample.opts LoaderSample.graph LoaderSample.pkgs LoaderSample.order 20 LoaderSample.order_valid
    LoaderSample.paths_once (.inr rfl) fun i _ => dirOk i).1 _ (by rw [loads]; simp)

/-- Of package 5 there is nothing to tell. -/
example : ∀ n, ¬ Told LoaderSample.env (fun _ => false) LoaderSample.opts (LoaderSample.pkgs 5) n := by
  intro n h
  have h' := ((C106_told LoaderSample.env (fun _ => false) LoaderSample.opts (LoaderSample.pkgs 5) (dirOk 5) (.inr rfl)).2 n).2 h
  have : normalizeDebug LoaderSample.env (fun _ => false) (Loader.withVersion LoaderSample.opts) (LoaderSample.pkgs 5) = [] := by decide +kernel
  rw [this] at h'
  simp at h'

/-! ## The run -/

def objT : Obj := .plain ⟨30, .typeName (.named (.struct [])), go!"T", some go!"dep", 970⟩
def objU : Obj := .plain ⟨31, .typeName (.named (.struct [])), go!"U", some go!"src", 980⟩
/-- `T` has the method `H` of a type of the package `gone`, which it embeds. -/
def methodH : Impl.Method := ⟨LogSample.objH, mR.sig, true⟩
def defT : Impl.TypeDef := ⟨objT.self, true, some ⟨7, false, [methodH]⟩⟩
def defU : Impl.TypeDef := ⟨objU.self, true, some ⟨8, false, []⟩⟩

def dep : Package :=
  { env := { LogSample.env with pkgPath := go!"dep", defs := fun _ => none, uses := fun _ => none }, name := go!"dep", files := [], implicits := []
    pkgNameOf := fun _ => none, imports := fun _ => none, defs := none, scope := some [some defT] }
def src : Package :=
  { env := { LogSample.env with pkgPath := go!"src", defs := fun _ => none, uses := fun _ => none }, name := go!"src", files := [], implicits := []
    pkgNameOf := fun _ => none, imports := fun _ => none, defs := some [some defU], scope := some [] }

def all : GoMap Package := LogSample.project ++ [(go!"dep", dep), (go!"src", src)]
def objs : List Obj := LogSample.objs ++ [objT]

theorem in_all {k : Str} {p : Package} (h : (k, p) ∈ all) :
    (k = go!"m/c" ∧ p = LogSample.pkg) ∨ (k = go!"dep" ∧ p = dep) ∨ (k = go!"src" ∧ p = src) := by
  simpa [all, LogSample.project] using h

theorem mem_objs {r : Obj} (h : r ∈ LogSample.objs) : r ∈ objs := List.mem_append_left _ h

theorem types_dep : TypedTypes objs dep where
  asked := by
    intro t ⟨ds, hds, ht⟩
    rcases hds with hds | hds <;> simp only [dep, Option.some.injEq, reduceCtorEq] at hds
    subst hds
    simp only [List.mem_singleton, Option.some.injEq] at ht
    subst ht
    intro n hn
    simp only [defT, Option.some.injEq] at hn
    subst hn
    refine ⟨?_, by decide⟩
    intro m hm
    simp only [List.mem_singleton] at hm
    subst hm
    exact ⟨by decide +kernel, _, rfl⟩
  scope := by
    intro ds hds t ht
    simp only [dep, Option.some.injEq] at hds
    subst hds
    simp only [List.mem_singleton, Option.some.injEq] at ht
    subst ht
    exact ⟨rfl, by decide +kernel⟩

theorem types_src : TypedTypes objs src where
  asked := by
    intro t ⟨ds, hds, ht⟩
    rcases hds with hds | hds <;> simp only [src, Option.some.injEq] at hds <;> subst hds
    · simp only [List.mem_singleton, Option.some.injEq] at ht
      subst ht
      intro n hn
      simp only [defU, Option.some.injEq] at hn
      subst hn
      exact ⟨by simp, by simp⟩
    · simp at ht
  scope := by
    intro ds hds t ht
    simp only [src, Option.some.injEq] at hds
    subst hds
    simp at ht

theorem types_pkg : TypedTypes objs LogSample.pkg where
  asked := by
    intro t ⟨ds, hds, ht⟩
    rcases hds with hds | hds <;> simp only [LogSample.pkg, Option.some.injEq] at hds <;> subst hds <;> simp at ht
  scope := by
    intro ds hds t ht
    simp only [LogSample.pkg, Option.some.injEq] at hds; subst hds; simp at ht

theorem typed : TypedProject deps LogSample.project all objs where
  project_keyed := LogSample.typed.project_keyed
  all_keyed := ⟨by decide, fun k p h => by rcases in_all h with ⟨rfl, rfl⟩ | ⟨rfl, rfl⟩ | ⟨rfl, rfl⟩ <;> rfl⟩
  sub := fun k p h => by obtain ⟨rfl, rfl⟩ := LogSample.in_project h; simp [all, LogSample.project]
  packages := fun k p h => by
    obtain ⟨rfl, rfl⟩ := LogSample.in_project h
    exact
      { LogSample.package with
        files := fun f hf => by
          rw [LogSample.in_files hf]
          exact
            { parsed := { top_level := LogSample.parsed.top_level, distinct := by decide +kernel }
              declarations := LogSample.declarations
              looked_up := fun i hi r hr => of_decide_eq_true (lookups (P := fun _ r => decide (r ∈ objs)) (by decide +kernel) i hi r hr)
              imports := LogSample.source.imports
              import_names := fun uid n a hm => (named_imports (by decide +kernel) uid n a hm).elim
              apart := by decide +kernel
              declared_at := fun i hi r hr => of_decide_eq_true (lookups (P := fun i d => decide (d.self.pos = i.pos)) (by decide +kernel) i hi r hr)
              no_package_value := fun i hi r hr => notPkg (lookups (P := fun _ o => match o.self.cls with | .pkgName _ => false | _ => true)
                (by decide +kernel) i hi r hr) }
        clauses := by
          have h : ∀ f ∈ LogSample.pkg.files, ∀ f' ∈ LogSample.pkg.files, ∀ i ∈ identsOf (fileEventsOf deps all LogSample.pkg f), i.pos ≠ f'.name.pos := by
            intro f hf f' hf'
            rw [LogSample.in_files hf, LogSample.in_files hf']; decide +kernel
          exact h
        fileSet := by
          intro f hf
          rw [LogSample.in_files hf]; exact ⟨rfl, by decide +kernel⟩ }
  types := fun k p h => by
    rcases in_all h with ⟨rfl, rfl⟩ | ⟨rfl, rfl⟩ | ⟨rfl, rfl⟩
    · exact types_pkg
    · exact types_dep
    · exact types_src
  apart := by decide +kernel
  files_apart := by decide +kernel
  coherent := by unfold CoherentObjs; decide +kernel
  wellFormed := by
    intro o ho
    rcases List.mem_append.1 ho with ho | ho
    · exact LogSample.wellFormed o ho
    · simp only [List.mem_singleton] at ho
      subst ho
      refine ⟨by decide, fun p hp => ?_, fun h => by simp [objT, Obj.plain] at h, fun h => by simp [objT, Obj.plain] at h⟩
      have : go!"dep" = p := by simpa [objT, Obj.plain] using hp
      subst this
      exact ⟨by decide, by decide⟩

theorem no_project_type {p : Package} {d : Impl.TypeDef} {t : Impl.NamedT} (h : ProjectType LogSample.project p d t) : False := by
  obtain ⟨h1, _, ⟨ds, h3, h4⟩, _⟩ := h
  obtain ⟨_, rfl⟩ := LogSample.in_project h1
  simp only [LogSample.pkg, Option.some.injEq] at h3
  subst h3
  simp at h4

theorem dependencyType {p : Package} {d : Impl.TypeDef} {t : Impl.NamedT} (h : DependencyType LogSample.project all p d t) :
    p = dep ∧ d = defT ∧ t = ⟨7, false, [methodH]⟩ := by
  obtain ⟨h1, _, _, h4, ⟨ds, h5, h6⟩, _, h8⟩ := h
  rcases in_all h1 with ⟨_, rfl⟩ | ⟨_, rfl⟩ | ⟨_, rfl⟩
  · simp [LogSample.pkg] at h4
  · simp only [dep, Option.some.injEq] at h5
    subst h5
    simp only [List.mem_singleton, Option.some.injEq] at h6
    subst h6
    simp only [defT, Option.some.injEq] at h8
    exact ⟨rfl, rfl, h8.symm⟩
  · simp [src] at h4

/-- Nothing names the method, since its package was not loaded. -/
theorem methodH_nameless : Nameless deps LogSample.project all methodH.obj := by
  refine ⟨⟨go!"gone", rfl, by decide⟩, ?_⟩
  rintro x ⟨_, _, path, hp, _, hx⟩
  have : go!"gone" = path := by simpa [methodH, LogSample.objH, Obj.plain] using hp
  subst this
  rcases hx with ⟨p, h1, h2, _⟩ | ⟨_, p, ds, h1, _⟩
  · obtain ⟨_, rfl⟩ := LogSample.in_project h1
    revert h2
    decide +kernel
  · rcases in_all h1 with ⟨h, _⟩ | ⟨h, _⟩ | ⟨h, _⟩ <;> exact absurd h (by decide)

theorem namedTypes : NamedTypes deps LogSample.project all where
  fields := by
    intro p hp _
    rcases in_all hp with ⟨_, rfl⟩ | ⟨_, rfl⟩ | ⟨_, rfl⟩ <;> exact ⟨by decide +kernel, by decide +kernel⟩
  checked := by
    intro p hp _
    obtain ⟨_, rfl⟩ := LogSample.in_project hp
    exact ⟨rfl, rfl⟩
  declared := fun p d t h => (no_project_type h).elim
  once := fun p d t d' t' h _ _ => (no_project_type h).elim
  scope_once := fun p d t d' t' h h' _ => by rw [(dependencyType h).2.1, (dependencyType h').2.1]
  scope_types := fun p d t h => by rw [(dependencyType h).2.1]; exact ⟨_, rfl⟩
  origins := fun b p d t h m hm => by
    cases b with
    | true => exact (no_project_type h).elim
    | false =>
      obtain ⟨_, _, rfl⟩ := dependencyType h
      simp only [List.mem_singleton] at hm
      subst hm
      exact ⟨_, rfl⟩
  named_once := fun b p d t h m hm x y hx hy => by
    cases b with
    | true => exact (no_project_type h).elim
    | false =>
      obtain ⟨_, _, rfl⟩ := dependencyType h
      simp only [List.mem_singleton] at hm
      subst hm
      exact absurd hx (methodH_nameless.2 x)
  methods := fun p d t h => (no_project_type h).elim

def table : Global := ((indexVisitPackages opts ord LogSample.project all).getD ([], newGlobal opts)).2

theorem tells : implementationsDebug deps opts ord LogSample.project all table = [.methodUnknown go!"H", .noSymbol go!"U" go!"src"] := by decide +kernel

theorem visits : collectionDebug opts ord LogSample.project all = [.visiting go!"m/c"] := by decide +kernel

theorem collected : ∃ docs, indexVisitPackages opts ord LogSample.project all = some (docs, table) := by
  have h : (indexVisitPackages opts ord LogSample.project all).isSome = true := by decide +kernel
  obtain ⟨⟨docs, g⟩, hg⟩ := Option.isSome_iff_exists.1 h
  refine ⟨docs, ?_⟩
  unfold table
  rw [hg]
  rfl

/-- C106 applies to the run: the type of `src` and the method of `gone` are left out. -/
example : LeftOut deps LogSample.project all (.noSymbol go!"U" go!"src") ∧ LeftOut deps LogSample.project all (.methodUnknown go!"H") := by
  obtain ⟨docs, hvp⟩ := collected
  obtain ⟨r, hr⟩ : ∃ r, implementations deps opts ord LogSample.project all table = some r := Option.isSome_iff_exists.1 (by decide +kernel)
  have h := C106_left_out deps opts ord LogSample.project all objs typed ord_ok namedTypes hvp hr
  exact ⟨((h _).1 (by rw [tells]; simp)).2, ((h _).1 (by rw [tells]; simp)).2⟩

end Verif.DebugSample
