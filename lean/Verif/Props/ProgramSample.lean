import Verif.Props.Program
import Verif.Props.IndexSample
import Verif.Props.LoaderSample
/-!
# A concrete program meets the hypotheses of C81-C83

The go command delivers the package `m/p` of `IndexSample` and what it imports: `fmt`, which imports `io` and `os`; `os` imports another
variant of `io`.
-/
namespace Verif.ProgramSample
open Verif Spec Index IndexSample Program Loader.Spec

def info : Nat → Loader.PkgSt
  | 0 => ⟨go!"m/p", some ⟨⟨go!"m", go!"v1", go!"/w/m", go!"/w/m/go.mod"⟩, none⟩⟩
  | 1 => ⟨go!"fmt", none⟩
  | 3 => ⟨go!"os", none⟩
  | _ => ⟨go!"io", none⟩

/-- A package of the standard library without types. -/
def pkgStd (name : Str) : Package :=
  { env := ⟨name, ⟨go!"std", go!"go1"⟩, fun _ => none, fun _ => none, fun _ => [], fun _ => [], fun _ => ⟨1, 1⟩⟩, name := name
    files := [], implicits := [], pkgNameOf := fun _ => none, imports := fun _ => none, defs := none, scope := some [] }

def package : Nat → Package
  | 0 => pkgP
  | 1 => pkgFmt
  | 3 => pkgStd go!"os"
  | _ => pkgStd go!"io"

def imports : Nat → GoMap Nat
  | 0 => [(go!"fmt", 1)]
  | 1 => [(go!"io", 2), (go!"os", 3)]
  | 3 => [(go!"io", 4)]
  | _ => []

def delivered : Delivered := ⟨package, info, imports, [0]⟩

def answer : Query → Except Str Delivered := fun q => if q = ⟨go!"/w/m", true, [go!"./..."]⟩ then .ok delivered else .error go!"no packages"
def env : Loader.Env := ⟨fun _ => .unreadable, fun _ => none⟩
def order : Nat → Nat → List Nat := fun _ => delivered.graph.imports

theorem reach {i : Nat} (h : Reachable delivered.graph i) : i ≤ 4 := by
  induction h with
  | root h =>
    simp only [delivered, Delivered.graph, List.mem_singleton] at h
    omega
  | @imported i j _ hij ih =>
    have : ∀ i ≤ 4, ∀ j ∈ delivered.graph.imports i, j ≤ 4 := by decide +kernel
    exact this i ih j hij

theorem reach0 : Reachable delivered.graph 0 := .root (by simp [delivered, Delivered.graph])
theorem reach1 : Reachable delivered.graph 1 := .imported reach0 (by decide +kernel)
theorem reach2 : Reachable delivered.graph 2 := .imported reach1 (by decide +kernel)
theorem reach3 : Reachable delivered.graph 3 := .imported reach1 (by decide +kernel)
theorem reach4 : Reachable delivered.graph 4 := .imported reach3 (by decide +kernel)

/-- Packages of the same path: `io` is there twice. -/
theorem same_path {i j : Nat} (hi : Reachable delivered.graph i) (hj : Reachable delivered.graph j)
    (h : (delivered.info i).path = (delivered.info j).path) : i = j ∨ (i = 2 ∨ i = 4) ∧ (j = 2 ∨ j = 4) := by
  have : ∀ i ≤ 4, ∀ j ≤ 4, (delivered.info i).path = (delivered.info j).path → i = j ∨ (i = 2 ∨ i = 4) ∧ (j = 2 ∨ j = 4) := by decide +kernel
  exact this i (reach hi) j (reach hj) h

theorem go_program : GoProgram delivered answer order options where
  answer := by
    have : (⟨options.moduleRoot, !options.skipTests, if options.packagePatterns = [] then [go!"./..."] else options.packagePatterns⟩ : Query) =
        ⟨go!"/w/m", true, [go!"./..."]⟩ := by decide +kernel
    rw [this]
    exact if_pos rfl
  order := fun _ _ => .refl _
  paths := by
    intro i h
    have : ∀ q : Loader.PkgSt, q.path.head? ≠ some 's' → ¬ go!"std/" <+: q.path := by
      rintro q hq ⟨t, ht⟩; rw [← ht] at hq; simp at hq
    revert h
    apply this
    show (info i).path.head? ≠ some 's'
    unfold info
    split <;> decide
  variants := by
    refine ⟨fun i j hi hj h => ?_, fun i j hi hj h _ f hf => ?_, fun i j hi hj h _ a ha => ?_, fun i hi h => ?_⟩
    · left
      rcases same_path hi hj h with rfl | ⟨rfl | rfl, rfl | rfl⟩ <;> exact Nat.le_refl _
    · rcases same_path hi hj h with rfl | ⟨rfl | rfl, rfl | rfl⟩ <;> exact hf
    · rcases same_path hi hj h with rfl | ⟨rfl | rfl, rfl | rfl⟩ <;> exact ⟨a, ha, rfl⟩
    · have : ∀ i ≤ 4, (delivered.info i).path ≠ go!"builtin" := by decide +kernel
      exact absurd h (this i (reach hi))

theorem known_iff (q : Str) : pathKnown delivered q = true ↔ q ∈ [go!"builtin", go!"m/p", go!"fmt", go!"io", go!"os"] := by
  unfold pathKnown
  rw [@decide_eq_true_iff _ (_)]
  constructor
  · rintro (rfl | ⟨i, hi, rfl⟩)
    · simp
    · have : ∀ i ≤ 4, (delivered.info i).path ∈ [go!"builtin", go!"m/p", go!"fmt", go!"io", go!"os"] := by decide +kernel
      exact this i (reach hi)
  · intro h
    simp only [List.mem_cons, List.not_mem_nil, or_false] at h
    rcases h with rfl | rfl | rfl | rfl | rfl
    · exact .inl rfl
    · exact .inr ⟨0, reach0, rfl⟩
    · exact .inr ⟨1, reach1, rfl⟩
    · exact .inr ⟨2, reach2, rfl⟩
    · exact .inr ⟨3, reach3, rfl⟩

/-- `m/p` does not use `io` and `os`. -/
theorem events_same (f : SourceFile) : fileEventsIn deps (pathKnown delivered) pkgP f = fileEventsOf deps all pkgP f := by
  refine traverseList_known ?_ _
  intro n i x imported h
  have himp : imported = go!"fmt" := by
    unfold packageQualifier at h
    split at h
    · rename_i u
      obtain ⟨y, hy, h⟩ := Option.bind_eq_some_iff.1 h
      have hall : ∀ e ∈ useList, ∀ q, e.2.self.cls = .pkgName q → q = go!"fmt" := by
        have hb : (useList.all fun e => match e.2.self.cls with | .pkgName q => q == go!"fmt" | _ => true) = true := by decide +kernel
        intro e he q hq
        have := List.all_eq_true.1 hb e he
        rw [hq] at this
        simpa using this
      split at h
      · rename_i q hq
        simp only [Option.some.injEq, Prod.mk.injEq] at h
        rw [← h.2.2]
        exact hall _ (mem_of_lookup hy) q hq
      · simp at h
    · simp at h
  rw [himp, (known_iff _).2 (by simp)]
  decide

/-- What is delivered is the package of `IndexSample`. -/
theorem package0 : asDelivered delivered 0 = pkgP := by
  have e : (asDelivered delivered 0).imports = pkgP.imports := by
    funext path
    by_cases h : path = go!"fmt"
    · subst h; decide
    · have e : GoMap.get [(go!"fmt", 1)] path = none := by simp [GoMap.get, h, beq_iff_eq]
      show (match GoMap.get [(go!"fmt", 1)] path with | some j => some (info j).path | none => none) = pkgP.imports path
      rw [e]
      simp [pkgP, h]
  show { asDelivered delivered 0 with imports := (asDelivered delivered 0).imports } = pkgP
  rw [e]
  rfl

theorem in_project {i : Nat} (h : InProject delivered i) : i = 0 := by
  obtain ⟨hi, r, hr, hp⟩ := h
  have hr : r = 0 := by simpa [delivered] using hr
  rcases same_path hi reach0 (by rw [← hp, hr]) with h | ⟨_, h | h⟩
  · exact h
  · simp at h
  · simp at h

theorem typed : TypedProgram delivered deps objs where
  packages := fun i hi => by rw [in_project hi, package0]; exact typedPackage_known packageP events_same
  types := fun i hi => by
    match i, reach hi with
    | 0, _ => rw [package0]; exact types_ok (k := go!"m/p") (by simp [all])
    | 1, _ =>
      have h : TypedTypes objs pkgFmt := types_ok (k := go!"fmt") (by simp [all])
      exact ⟨h.asked, h.scope⟩
    | 2, _ | 3, _ | 4, _ =>
      refine ⟨?_, ?_⟩
      · rintro t ⟨ds, h1, h2⟩
        have : ds = [] := by rcases h1 with h1 | h1 <;> simp [asDelivered, delivered, package, pkgStd] at h1; exact h1
        simp [this] at h2
      · intro ds h1 t h2
        have : ds = [] := by simp [asDelivered, delivered, package, pkgStd] at h1; exact h1
        simp [this] at h2
  files_once := fun i hi => by rw [in_project hi]; exact ⟨by decide +kernel, by decide +kernel⟩
  files_apart := fun i j hi hj h => absurd (by rw [in_project hi, in_project hj]) h
  coherent := IndexSample.typed.coherent
  wellFormed := IndexSample.typed.wellFormed

theorem signed : SignedProgram delivered deps := by
  refine ⟨sampleLex_ok, fun i hi t ht => ?_⟩
  match i, reach hi with
  | 0, _ => exact extractor_ok.2 go!"m/p" pkgP (by simp [all]) t ht
  | 1, _ => exact extractor_ok.2 go!"fmt" pkgFmt (by simp [all]) t ht
  | 2, _ | 3, _ | 4, _ =>
    obtain ⟨ds, h1, h2⟩ := ht
    have : ds = [] := by rcases h1 with h1 | h1 <;> simp [delivered, package, pkgStd] at h1; exact h1
    simp [this] at h2

def run : Option Run := indexing deps answer env order 20 ord options writer

/-- The expected output. -/
def expected : List (Str × Nat × List (Str × List Str)) :=
    [ (go!"file:///w/m", 0, []),
      (go!"p/a.go", 8, [(go!"scip-go gomod m v1 `m/p`/", []), (go!"scip-go gomod m v1 `m/p`/F().", []), (go!"local 0", [])]),
      (go!"p/b.go", 12, [(go!"scip-go gomod m v1 `m/p`/G().", []),
        (go!"scip-go gomod m v1 `m/p`/S#M().", [go!"scip-go gomod m v1 `m/p`/I#M."]),
        (go!"scip-go gomod m v1 `m/p`/I#M.", []), (go!"scip-go gomod m v1 `m/p`/I#", []),
        (go!"scip-go gomod m v1 `m/p`/S#", [go!"scip-go gomod m v1 `m/p`/I#"]), (go!"local 0", []), (go!"local 1", [])]),
      (go!"scip-go gomod github.com/golang/go/src go1 fmt/R#", 0,
        [(go!"scip-go gomod github.com/golang/go/src go1 fmt/R#", [go!"scip-go gomod m v1 `m/p`/I#"])]) ]

/-- The run gives one document for each of the two files; the standard library is identified as such. -/
theorem messages : run.isSome = true ∧ run.map (·.outcome) = some .ok ∧ (run.map (fun r => r.messages.map summary)).getD [] = expected := by
  refine ⟨by decide +kernel, by decide +kernel, by decide +kernel⟩

theorem original : ∀ r ∈ objs, ∀ q, (entityOf r).cls ≠ .pkgName q := by
  have h : (objs.all fun r => match (entityOf r).cls with | .pkgName _ => false | _ => true) = true := by decide +kernel
  intro r hr q e
  have := List.all_eq_true.1 h r hr
  rw [e] at this
  simp at this

theorem absolute : Spec.Absolute options.moduleRoot := by
  unfold Spec.Absolute
  decide +kernel

theorem dirs (i : Nat) (hi : Reachable delivered.graph i) : DirOk (identityOpts options) (delivered.info i) := by
  intro m hm
  match i, reach hi with
  | 0, _ =>
    simp only [delivered, info, Option.some.injEq] at hm
    subst hm
    exact .inr absolute
  | 1, _ | 2, _ | 3, _ | 4, _ => simp [delivered, info] at hm

theorem finite : FiniteGraph delivered.graph := ⟨[0, 1, 2, 3, 4], fun i hi => by have := reach hi; simp; omega⟩

/-- The run as a value. -/
theorem run_some : ∃ r, run = some r ∧ r.outcome = .ok ∧ r.messages.map summary = expected := by
  have h := messages
  cases hr : run with
  | none => rw [hr] at h; simp at h
  | some r =>
    rw [hr] at h
    simp only [Option.map_some, Option.some.injEq, Option.getD_some] at h
    exact ⟨r, rfl, h.2⟩

/-- C82 for this run: the files of the package `m/p`. -/
example : ∃ r, run = some r ∧ ∃ names : List Str, names.Nodup ∧
    (∀ n, n ∈ names ↔ ∃ i ∈ delivered.roots, n ∈ fileNames delivered i) ∧
    documentPaths r.messages = names.map (fun n => (Filepath.rel go!"/w/m" n).getD []) := by
  obtain ⟨r, hr, hok, _⟩ := run_some
  exact ⟨r, hr, C82_every_file_indexed deps answer env order 20 ord options writer delivered objs go_program typed r hr hok⟩

example : ∃ r, run = some r ∧ r.outcome ≠ .crash := by
  obtain ⟨r, hr, hok, _⟩ := run_some
  exact ⟨r, hr, (C82_never_crashes deps answer env order 20 ord options writer delivered objs go_program typed signed ord_ok r hr).1⟩

example : ∃ n r, ∀ m, n ≤ m → indexing deps answer env order m ord options writer = some r :=
  C82_run_ends deps answer env order ord options writer delivered go_program finite

/-- C83 for this run: the external symbol belongs to `fmt`, whose identity is that of the standard library. -/
example : OfDelivered delivered env options go!"scip-go gomod github.com/golang/go/src go1 fmt/R#" := by
  obtain ⟨r, hr, hok, hm⟩ := run_some
  have key := C83_every_symbol_identified deps answer env order 20 ord options writer delivered objs go_program typed ord_ok original
    (.inr absolute) dirs r hr
  have h4 : ∃ m ∈ r.messages, summary m = (go!"scip-go gomod github.com/golang/go/src go1 fmt/R#", 0,
      [(go!"scip-go gomod github.com/golang/go/src go1 fmt/R#", [go!"scip-go gomod m v1 `m/p`/I#"])]) := by
    apply List.mem_map.1
    rw [hm]
    simp [expected]
  obtain ⟨m, hmem, hs⟩ := h4
  have := key m hmem
  cases m with
  | metadata => simp [summary] at hs
  | document p os ss =>
    simp only [summary, Prod.mk.injEq] at hs
    have hkey := this.2
    cases ss with
    | nil => simp at hs
    | cons s ss =>
      have h1 := (hkey s (List.mem_cons_self ..)).1
      simp only [List.map_cons, List.cons.injEq, Prod.mk.injEq] at hs
      rw [hs.2.2.1.1] at h1
      rcases h1 with ⟨k, hk⟩ | h1
      · exact absurd (congrArg List.head? hk) (by simp [localName])
      · exact h1
  | external s rs =>
    simp only [summary, Prod.mk.injEq] at hs
    rw [← hs.1]
    exact this.1

/-- C81 for the sample of the loader: the replaced module. -/
example : ∃ m, Identity LoaderSample.env LoaderSample.opts (LoaderSample.pkgs 4) m go!"v1.2.3" := by
  obtain ⟨l, hl, h⟩ := LoaderSample.sample_load
  obtain ⟨m, hm, hid⟩ := C81_identity LoaderSample.order_valid LoaderSample.paths_once hl (.inr rfl) (i := 4)
    (by intro m hm; simp only [LoaderSample.pkgs, Option.some.injEq] at hm; subst hm; exact .inr (by unfold Absolute; decide +kernel)) h.2.2.2.2.1
  refine ⟨m.path, ?_⟩
  have e := h.2.2.2.2.2.2.2
  simp only [List.map_cons, List.cons.injEq, hm, Option.map_some, Option.some.injEq, Prod.mk.injEq] at e
  rw [← e.2.2.2.1.2]
  exact hid

end Verif.ProgramSample
