import Verif.Props.SkipImplementations
import Verif.Props.ProgramSample
import Verif.Props.TypesRunSample
/-! # The program of `ProgramSample` meets the hypotheses of C85 -/
namespace Verif.ProgramSample
open Verif Spec Index IndexSample Program Loader.Spec

/-- The other order of iteration: of the two variants of `io`, the other one is kept. -/
def order' : Nat → Nat → List Nat := fun _ i => (delivered.graph.imports i).reverse

theorem go_program' : GoProgram delivered answer order' options :=
  ⟨go_program.answer, fun _ _ => List.reverse_perm _, go_program.paths, go_program.variants⟩

theorem alike : AlikeVariants delivered := by
  intro i j hi hj h _
  rcases same_path hi hj h with rfl | ⟨rfl | rfl, rfl | rfl⟩ <;> exact ⟨rfl, rfl⟩

theorem not_builtin : (package 0).name ≠ go!"builtin" := by decide

theorem identified (i : Nat) (hi : i ≤ 4) : ∃ q m, Loader.normalize env (Loader.withVersion (identityOpts options)) (delivered.info i) = some q ∧
    q.module = some m ∧ fieldOk m.path ∧ fieldOk m.version := by
  have : ∀ i ≤ 4, match Loader.normalize env (Loader.withVersion (identityOpts options)) (delivered.info i) with
      | some q => (match q.module with | some m => fieldOk m.path ∧ fieldOk m.version | none => False)
      | none => False := by
    intro i hi
    match i, hi with
    | 0, _ | 1, _ | 2, _ | 3, _ | 4, _ => exact ⟨by decide +kernel, by decide +kernel⟩
  have := this i hi
  split at this
  · rename_i q hq
    split at this
    · rename_i m hm
      exact ⟨q, m, hq, hm, this⟩
    · exact this.elim
  · exact this.elim

theorem sourceType_iff {t : Impl.TypeDef} {n : Impl.NamedT} (h : SourceType delivered 0 t n) : t = defI ∧ n = nI ∨ t = defS ∧ n = nS := by
  have : ProjectType project pkgP t n := ⟨by simp [project, pkgP, Package.path, envP], h.notBuiltin, h.declared, h.level, h.named⟩
  exact (projectType_iff this).2

theorem typeIn_iff {i : Nat} (hi : Reachable delivered.graph i) {t : Impl.TypeDef} {n : Impl.NamedT} (h : TypeIn delivered i t n) :
    t = defI ∧ n = nI ∨ t = defS ∧ n = nS ∨ t = defR ∧ n = nR := by
  obtain ⟨⟨ds, h1, h2⟩, h3⟩ := h
  match i, reach hi with
  | 0, _ =>
    rcases h1 with h1 | h1 <;> simp only [delivered, package, pkgP, Option.some.injEq] at h1 <;> subst h1 <;>
      simp only [List.mem_cons, Option.some.injEq, reduceCtorEq, List.not_mem_nil, or_false, false_or] at h2 <;> rcases h2 with rfl | rfl <;>
      simp at h3 <;> subst h3 <;> simp [defI, defS]
  | 1, _ =>
    rcases h1 with h1 | h1 <;> simp only [delivered, package, pkgFmt, Option.some.injEq, reduceCtorEq] at h1
    subst h1
    simp only [List.mem_cons, Option.some.injEq, reduceCtorEq, List.not_mem_nil, or_false] at h2
    subst h2
    simp at h3
    subst h3
    simp [defR]
  | 2, _ | 3, _ | 4, _ =>
    rcases h1 with h1 | h1 <;> simp [delivered, package, pkgStd] at h1
    simp [h1] at h2

theorem method_in {i : Nat} (hi : Reachable delivered.graph i) {t : Impl.TypeDef} {n : Impl.NamedT} (h : TypeIn delivered i t n) {m : Impl.Method}
    (hm : m ∈ n.methods) : m = mS ∨ m = mI ∨ m = mR := by
  rcases typeIn_iff hi h with ⟨_, rfl⟩ | ⟨_, rfl⟩ | ⟨_, rfl⟩
  · simp only [nI, List.mem_singleton] at hm; exact .inr (.inl hm)
  · simp only [nS, List.mem_singleton] at hm; exact .inl hm
  · simp only [nR, List.mem_singleton] at hm; exact .inr (.inr hm)

theorem named : NamedProgram delivered deps env options where
  fields := by
    intro i hi path version h
    obtain ⟨q, m, h1, h2, h3⟩ := identified i (reach hi)
    obtain ⟨m', h4, h5⟩ := identity_of_normalize (dirs i hi) (.inr absolute) h1
    rw [h2] at h4
    simp only [Option.some.injEq] at h4
    subst h4
    obtain ⟨rfl, rfl⟩ := C81_identity_unique h5 h
    exact h3
  checked := by
    intro i hi _
    rw [in_project hi]
    exact ⟨rfl, rfl⟩
  declared := by
    intro i hi t n h
    obtain rfl := in_project hi
    rw [package0]
    have hP : ProjectType project pkgP t n := ⟨by simp [project, pkgP, Package.path, envP], h.notBuiltin, h.declared, h.level, h.named⟩
    obtain ⟨f, hf, u, hu, h1, h2, h3⟩ := namedTypes.declared _ _ _ hP
    refine ⟨f, hf, u, ?_, h1, h2, h3⟩
    rw [events_same]
    exact hu
  once := by
    intro i hi t n t' n' h h' e
    obtain rfl := in_project hi
    rcases sourceType_iff h with ⟨rfl, rfl⟩ | ⟨rfl, rfl⟩ <;> rcases sourceType_iff h' with ⟨rfl, rfl⟩ | ⟨rfl, rfl⟩ <;>
      first | rfl | simp [defI, defS, objI, objS, Obj.plain] at e
  scope_once := by
    intro i hi ds hds t t' h h' e
    match i, reach hi with
    | 0, _ =>
      simp only [delivered, package, pkgP, Option.some.injEq] at hds
      subst hds
      simp at h
    | 1, _ =>
      simp only [delivered, package, pkgFmt, Option.some.injEq] at hds
      subst hds
      simp only [List.mem_cons, Option.some.injEq, List.not_mem_nil, or_false] at h h'
      rw [h, h']
    | 2, _ | 3, _ | 4, _ =>
      simp only [delivered, package, pkgStd, Option.some.injEq] at hds
      simp [← hds] at h
  scope_types := by
    intro i hi ds hds t n h hn
    rcases typeIn_iff hi ⟨⟨ds, .inr hds, h⟩, hn⟩ with ⟨rfl, _⟩ | ⟨rfl, _⟩ | ⟨rfl, _⟩ <;> exact ⟨_, rfl⟩
  origins := by
    intro i hi t n h m hm
    rcases method_in hi h hm with rfl | rfl | rfl <;> exact ⟨_, rfl⟩
  methods_once := by
    intro i hi t n h m hm j j' hj hj' u ds u' ds' h1 h2
    obtain rfl := in_project hj
    obtain rfl := in_project hj'
    refine ⟨rfl, ?_⟩
    rw [package0] at h1 h2
    have d1 := declares_all _ _ _ h1
    have d2 := declares_all _ _ _ h2
    rcases method_in hi h hm with rfl | rfl | rfl <;> simp [IndexSample.declared, mS, mI, mR, ImplSample.meth, Obj.plain] at d1 d2
    · rw [d1.2, d2.2]
    · rw [d1.2, d2.2]
  methods_clause := by
    intro i hi t n h m hm j hj f hf
    obtain rfl := in_project hj
    simp only [delivered, package, pkgP, List.mem_cons, List.not_mem_nil, or_false] at hf
    rcases method_in hi h hm with rfl | rfl | rfl <;> rcases hf with rfl | rfl <;> decide
  methods_type := by
    intro i hi t n h m hm j hj t' n' h'
    obtain rfl := in_project hj
    rcases method_in hi h hm with rfl | rfl | rfl <;> rcases sourceType_iff h' with ⟨rfl, _⟩ | ⟨rfl, _⟩ <;> decide

def run' : Option Run := indexing deps answer env order' 20 ord' options writer

/-- Which package the loader keeps for `io`. -/
def keptIo (order : Nat → Nat → List Nat) : Option (Option Loader.Kept) :=
  match Loader.loadPackages env (loaderOpts options) (some (delivered.graph, delivered.info)) order 20 with
  | some (some l) => some (l.st.all.get go!"io")
  | _ => none

/-- The loader keeps the other variant of `io` in the second run. -/
example : keptIo order = some (some (.loaded 2)) ∧ keptIo order' = some (some (.loaded 4)) := by decide +kernel

/-- C85: the two runs write the same index. -/
example : ∃ r r', run = some r ∧ run' = some r' ∧ SameIndex r.messages r'.messages := by
  obtain ⟨r, hr, _⟩ := run_some
  obtain ⟨r', hr'⟩ : ∃ r', run' = some r' := Option.isSome_iff_exists.1 (by decide +kernel)
  exact ⟨r, r', hr, hr', (C85_same_index deps answer env order order' 20 20 ord ord' options writer writer delivered objs go_program go_program'
    alike typed signed named ord_ok ord'_ok (.inr absolute) dirs (fun _ _ => rfl) (fun _ _ => rfl) (by simp [env]) r r' hr hr').2.2⟩

/-- The same run without implementations. -/
def skipRun : Option Run := indexing deps answer env order' 20 ord' { options with skipImplementations := true, arguments := [go!"--skip-implementations"] } writer

/-- The relationships written in a run. -/
def relationships (r : Run) : List Str := r.messages.flatMap fun m =>
  match m with
  | .document _ _ syms => syms.flatMap (·.2)
  | .external _ rels => rels
  | _ => []

/-- C93: without implementations the same index without relationships; there are some. -/
example : ∃ r r', run = some r ∧ skipRun = some r' ∧ WithoutImplementations r.messages r'.messages := by
  obtain ⟨r, hr, _⟩ := run_some
  obtain ⟨r', hr'⟩ : ∃ r', skipRun = some r' := Option.isSome_iff_exists.1 (by decide +kernel)
  exact ⟨r, r', hr, hr', (C93_program deps answer env order order' 20 20 ord ord' options _ writer writer delivered objs go_program go_program'
    alike typed signed ord_ok ord'_ok (fun _ _ => rfl) (fun _ _ => rfl) (by simp [env]) r r' hr hr').2.2⟩

example : (run.map (fun r => (relationships r).length)).getD 0 = 3 := by decide +kernel
example : skipRun.map (fun r => (relationships r).length) = some 0 := by decide +kernel

end Verif.ProgramSample
