import Verif.Props.Log
import Verif.Props.IndexSample
/-!
# A project meets the hypotheses of C97, and everything that is reported is reported in it

```go
package c
import "lost"        // the type checker knows it, but it was not loaded
import "none"        // the type checker knows nothing about it
func G(x any) { lost.F(); x.H(); x; y }   // H is a method of a type of the package gone, which was not loaded; y is not declared
```
-/
namespace Verif.LogSample
open Verif Spec Index Log IndexSample

def objG : Obj := .plain ⟨1, .func (some none), go!"G", some go!"m/c", 40⟩
def objX : Obj := .plain ⟨2, .var false, go!"x", some go!"m/c", 45⟩
def objLost : Obj := .plain ⟨3, .pkgName go!"lost", go!"lost", some go!"m/c", 10⟩
def objH : Obj := .plain ⟨4, .func (some (some (.named go!"T" false))), go!"H", some go!"gone", 940⟩
def objF : Obj := .plain ⟨5, .func (some none), go!"F", some go!"lost", 960⟩

def useList : List (Nat × Obj) := [(3, objAny), (4, objLost), (5, objF), (6, objX), (7, objH), (8, objX)]
def defList : List (Nat × Obj) := [(1, objG), (2, objX)]

def decls : List Node :=
  [ .genDecl .imp [.importSpec 100 none 15, .importSpec 101 none 25] [],
    .funcDecl [] ⟨1, go!"G", 40⟩ (.funcT [] [.field 45 [⟨2, go!"x", 45⟩] (.ident ⟨3, go!"any", 50⟩) [] []] [])
      [.block [.other [.selector (.ident ⟨4, go!"lost", 55⟩) ⟨5, go!"F", 60⟩], .other [.selector (.ident ⟨6, go!"x", 65⟩) ⟨7, go!"H", 67⟩],
        .other [.ident ⟨8, go!"x", 70⟩], .other [.ident ⟨9, go!"y", 75⟩]]] 35 90 [] ]

def file : SourceFile := ⟨go!"/w/m/c/c.go", go!"/w/m/c/c.go", 0, ⟨0, go!"c", 8⟩, decls, none⟩

def env : PkgEnv :=
  { pkgPath := go!"m/c", module := modP, defs := fun u => defList.lookup u, uses := fun u => useList.lookup u, anonKey := fun _ => []
    signature := fun o => o.self.name, position := fun p => ⟨1, p % 1000 + 1⟩ }
def pkg : Package :=
  { env := env, name := go!"c", files := [file], implicits := [], pkgNameOf := fun u => if u = 100 then some go!"lost" else none
    imports := fun p => if p = go!"lost" then some go!"lost" else none, defs := some [], scope := some [] }

def project : GoMap Package := [(go!"m/c", pkg)]
def objs : List Obj := [objG, objX, objAny, objH]

def run : Run := index deps opts ord writer (.ok (project, project))

theorem logs : indexLogs deps opts ord writer (.ok (project, project)) =
    [[.importUnknown go!"lost", .importUnresolved 25, .packageUnknown go!"lost", .objectUnknown ⟨1, 68⟩ go!"gone", .unresolved go!"y" ⟨1, 76⟩]] := by
  decide +kernel

/-- What the document has. -/
theorem document : (run.messages[1]?).map (fun m => match m with | .document _ os _ => os | _ => []) = some
    [ ⟨[0, 8, 9], go!"scip-go gomod m v1 `m/c`/", true, none, false⟩,
      ⟨[0, 40, 41], go!"scip-go gomod m v1 `m/c`/G().", true, some [0, 35, 90], false⟩,
      ⟨[0, 45, 46], go!"local 0", true, none, false⟩,
      ⟨[0, 65, 66], go!"local 0", false, none, false⟩,
      ⟨[0, 70, 71], go!"local 0", false, none, false⟩ ] := by
  decide +kernel

theorem in_project {k : Str} {p : Package} (h : (k, p) ∈ project) : k = go!"m/c" ∧ p = pkg := by simpa [project] using h

theorem in_files {f : SourceFile} (h : f ∈ pkg.files) : f = file := by simpa [pkg] using h

theorem parsed : ParsedFile (sourceEnv deps pkg) (fun q => (project.get q).isSome) file.decls where
  top_level := by
    intro d hd
    simp only [file, decls, List.mem_cons, List.not_mem_nil, or_false] at hd
    rcases hd with rfl | rfl
    · left; free
    · right
      refine ⟨_, _, _, _, _, _, _, rfl, by simp, ?_, ?_⟩
      · free
      · simp only [List.forall_mem_cons, List.not_mem_nil, false_implies, implies_true, and_true]; free
  distinct := by decide +kernel

theorem declarations : FilesOk [file.node] := by
  intro n ds hn d hd
  simp only [List.mem_singleton, SourceFile.node, Node.file.injEq] at hn
  obtain ⟨rfl, rfl⟩ := hn
  simp only [file, decls, List.mem_cons, List.not_mem_nil, or_false] at hd
  rcases hd with rfl | rfl
  · exact ⟨by simp, by simp⟩
  · exact ⟨⟨_, .func⟩, .funcT (by simp)⟩

theorem source : TypedSource deps (fun q => (project.get q).isSome) objs pkg file where
  parsed := parsed
  declarations := declarations
  looked_up := fun i hi r hr => of_decide_eq_true (lookups (P := fun _ r => decide (r ∈ objs)) (by decide +kernel) i hi r hr)
  imports := fun a imported => by
    have := Nat.mod_lt a (show 1000 > 0 by decide)
    by_cases h : imported = go!"lost"
    · left
      subst h
      simp only [pkg, env, show (go!"lost").length = 4 from rfl]
      omega
    · right
      intro q hq
      simp only [pkg] at hq
      split at hq
      · simp only [Option.some.injEq] at hq; exact h hq.symm
      · simp at hq
  import_names := fun uid n a hm => (named_imports (by decide +kernel) uid n a hm).elim
  apart := by decide +kernel
  declared_at := fun i hi r hr => of_decide_eq_true (lookups (P := fun i d => decide (d.self.pos = i.pos)) (by decide +kernel) i hi r hr)
  no_package_value := fun i hi r hr => notPkg (lookups (P := fun _ o => match o.self.cls with | .pkgName _ => false | _ => true)
    (by decide +kernel) i hi r hr)

theorem package : TypedPackage deps (fun q => (project.get q).isSome) objs pkg where
  files := fun f hf => by rw [in_files hf]; exact source
  positions := by
    intro a
    have := Nat.mod_lt a (show 1000 > 0 by decide)
    refine ⟨Nat.le_refl _, ?_, ?_, ?_⟩ <;> simp only [pkg, env] <;> omega
  unquoted := by
    intro o ho
    have hall : ∀ e ∈ defList ++ useList, e.2.self.name.head? ≠ some '"' := by decide +kernel
    rcases ho with ⟨u, h | h⟩ | h
    · exact hall _ (List.mem_append_left _ (mem_of_lookup h))
    · exact hall _ (List.mem_append_right _ (mem_of_lookup h))
    · simp [pkg] at h
  clauses := by
    have h : ∀ f ∈ pkg.files, ∀ f' ∈ pkg.files, ∀ i ∈ identsOf (fileEventsOf deps project pkg f), i.pos ≠ f'.name.pos := by
      intro f hf f' hf'
      rw [in_files hf, in_files hf']; decide +kernel
    exact h
  clause_names := by
    intro f hf
    rw [in_files hf]; decide
  fileSet := by
    intro f hf
    rw [in_files hf]; exact ⟨rfl, by decide +kernel⟩
  implicits := by intro o ho; simp [pkg] at ho

theorem wellFormed : ∀ o ∈ objs, WellFormedObj o := by
  have h1 : ∀ o ∈ objs, '.' ∉ o.self.name := by decide +kernel
  have h2 : ∀ o ∈ objs, o.self.pkg ≠ some [] ∧ o.self.pkg ≠ some go!"_" := by decide +kernel
  have h3 : ∀ o ∈ objs, o.self.pkg = none → o = objAny := by decide +kernel
  intro o ho
  refine ⟨h1 o ho, fun p hp => ⟨fun e => (h2 o ho).1 (by rw [hp, e]), fun e => (h2 o ho).2 (by rw [hp, e])⟩, ?_, ?_⟩
  · intro h; rw [h3 o ho h]; exact .inl ⟨_, rfl⟩
  · intro h _ _; rw [h3 o ho h]; decide

theorem types_ok : TypedTypes objs pkg where
  asked := by
    intro t ⟨ds, hds, ht⟩
    rcases hds with hds | hds <;> simp only [pkg, Option.some.injEq] at hds <;> subst hds <;> simp at ht
  scope := by
    intro ds hds t ht
    simp only [pkg, Option.some.injEq] at hds; subst hds; simp at ht

theorem typed : TypedProject deps project project objs where
  project_keyed := ⟨by decide, fun k p h => by obtain ⟨rfl, rfl⟩ := in_project h; rfl⟩
  all_keyed := ⟨by decide, fun k p h => by obtain ⟨rfl, rfl⟩ := in_project h; rfl⟩
  sub := fun k p h => h
  packages := fun k p h => by obtain ⟨rfl, rfl⟩ := in_project h; exact package
  types := fun k p h => by obtain ⟨rfl, rfl⟩ := in_project h; exact types_ok
  apart := by decide +kernel
  files_apart := by decide +kernel
  coherent := by unfold CoherentObjs; decide +kernel
  wellFormed := wellFormed

theorem no_packages : ∀ r ∈ objs, ∀ q, (entityOf r).cls ≠ .pkgName q := by
  have h : (objs.all fun r => match (entityOf r).cls with | .pkgName _ => false | _ => true) = true := by decide +kernel
  intro r hr q hq
  have := List.all_eq_true.1 h r hr
  simp only [hq] at this
  cases this

/-- The theorem applies, and the reference to `H`, which is not in the document, is the one that is reported. -/
example : ∃ log, (indexLogs deps opts ord writer (.ok (project, project)))[0]? = some log ∧ .objectUnknown ⟨1, 68⟩ go!"gone" ∈ log := by
  have hm : ∃ path occs syms, run.messages[1]? = some (.document path occs syms) := by
    have := document
    cases h : run.messages[1]? with
    | none => rw [h] at this; simp at this
    | some m =>
      cases m with
      | document a b c => exact ⟨a, b, c, rfl⟩
      | metadata a => rw [h] at this; simp at this
      | external a => rw [h] at this; simp at this
  obtain ⟨path, occs, syms, hm⟩ := hm
  have hocc := document
  rw [hm] at hocc
  simp only [Option.map_some, Option.some.injEq] at hocc
  obtain ⟨log, hlog, hid, _, _⟩ := C97_no_silent_loss deps opts ord writer project project objs typed ord_ok no_packages 0 (pkg, file)
    (by rfl) path occs syms hm
  refine ⟨log, hlog, ?_⟩
  rcases hid ⟨7, go!"H", 67⟩ none (List.mem_of_getElem? (i := 7) (by rfl)) (by decide) (by simp [SwitchIdent, pkg]) objH rfl with ⟨x, hx, h1, h2⟩ | h | ⟨q, hq, h⟩
  · exfalso
    rw [hocc] at hx
    have hr : identSpan (sourceEnv deps pkg) ⟨7, go!"H", 67⟩ = [0, 67, 68] := by decide +kernel
    rw [hr] at h2
    simp only [List.mem_cons, List.not_mem_nil, or_false] at hx
    rcases hx with rfl | rfl | rfl | rfl | rfl <;> simp at h2
  · exfalso
    revert h
    unfold NeedsNoSymbol
    decide
  · have : q = go!"gone" := by
      have : some go!"gone" = some q := hq
      simpa using this.symm
    subst this
    exact h

end Verif.LogSample
