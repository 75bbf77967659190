import Verif.Props.Modularity
import Verif.Props.ContentSample
/-!
# A project meets the hypotheses of C95, and the exceptions are real

```go
// m/a/a.go                          // m/b/b.go
package a                            package b
import "m/b"                         type I interface{ M() }
func A(x b.I) { b.F(); x.M() }       // Deprecated: no.
                                     func F() {}
```

Without `more` only `m/a` is indexed, and `m/b` is a dependency that is known from export data; with `more` both are indexed.  There are
three variants of the first file: this one, one without the call `x.M()`, and one with `func A() {}` only.
-/
namespace Verif.ModularitySample
open Verif Spec Index IndexSample

/-- The variants of the first file. -/
inductive Variant
  | full
  | plain
  | alone

def objA : Obj := .plain ⟨1, .func (some none), go!"A", some go!"m/a", 40⟩
def objX : Obj := .plain ⟨2, .var false, go!"x", some go!"m/a", 45⟩
def objQ : Obj := .plain ⟨3, .pkgName go!"m/b", go!"b", some go!"m/a", 20⟩
def objF (more : Bool) : Obj := .plain ⟨4, .func (some none), go!"F", some go!"m/b", if more then 140 else 900⟩
def objI (more : Bool) : Obj := .plain ⟨5, .typeName (.named .iface), go!"I", some go!"m/b", if more then 115 else 901⟩
def mM (more : Bool) : Impl.Method := ImplSample.meth 6 go!"M" go!"m/b" go!"I" (if more then 125 else 902) true true
def nI (more : Bool) : Impl.NamedT := ⟨1, true, [mM more]⟩
def defI (more : Bool) : Impl.TypeDef := ⟨(objI more).self, true, some (nI more)⟩

def useList (v : Variant) (more : Bool) : List (Nat × Obj) :=
  match v with
  | .full => [(3, objQ), (4, objI more), (5, objQ), (6, objF more), (7, objX), (8, (mM more).obj)]
  | .plain => [(3, objQ), (4, objI more), (5, objQ), (6, objF more)]
  | .alone => []
def defListA : List (Nat × Obj) := [(1, objA), (2, objX)]
def defListB : List (Nat × Obj) := [(11, objI true), (12, (mM true).obj), (13, objF true)]

def paramsA (v : Variant) : List Node :=
  match v with
  | .alone => []
  | _ => [.field 45 [⟨2, go!"x", 45⟩] (.selector (.ident ⟨3, go!"b", 50⟩) ⟨4, go!"I", 52⟩) [] []]
def bodyA (v : Variant) : List Node :=
  match v with
  | .full => [.other [.selector (.ident ⟨5, go!"b", 60⟩) ⟨6, go!"F", 62⟩], .other [.selector (.ident ⟨7, go!"x", 70⟩) ⟨8, go!"M", 72⟩]]
  | .plain => [.other [.selector (.ident ⟨5, go!"b", 60⟩) ⟨6, go!"F", 62⟩]]
  | .alone => []
def importsA (v : Variant) : List Node :=
  match v with
  | .alone => []
  | _ => [.importSpec 100 none 20]
def declsA (v : Variant) : List Node :=
  [ .genDecl .imp (importsA v) [],
    .funcDecl [] ⟨1, go!"A", 40⟩ (.funcT [] (paramsA v) []) [.block (bodyA v)] 35 90 [] ]
def declsB : List Node :=
  [ .genDecl .typ [.typeSpec ⟨11, go!"I", 115⟩ [] (.ifaceT [.field 125 [⟨12, go!"M", 125⟩] (.funcT [] [] []) [] []]) []] [],
    .funcDecl [] ⟨13, go!"F", 140⟩ (.funcT [] [] []) [.block []] 135 150 go!"Deprecated: no." ]

def fileA (v : Variant) : SourceFile := ⟨go!"/w/m/a/a.go", go!"/w/m/a/a.go", 0, ⟨0, go!"a", 8⟩, declsA v, none⟩
def fileB : SourceFile := ⟨go!"/w/m/b/b.go", go!"/w/m/b/b.go", 1, ⟨50, go!"b", 108⟩, declsB, none⟩

def envA (v : Variant) (more : Bool) : PkgEnv :=
  { pkgPath := go!"m/a", module := modP, defs := fun u => defListA.lookup u, uses := fun u => (useList v more).lookup u, anonKey := fun _ => []
    signature := fun o => o.self.name, position := fun p => ⟨1, p % 1000 + 1⟩ }
def envB (more : Bool) : PkgEnv :=
  { pkgPath := go!"m/b", module := modP, defs := fun u => if more then defListB.lookup u else none, uses := fun _ => none, anonKey := fun _ => []
    signature := fun o => o.self.name, position := fun p => ⟨1, p % 1000 + 1⟩ }

def pkgA (v : Variant) (more : Bool) : Package :=
  { env := envA v more, name := go!"a", files := [(fileA v)], implicits := []
    pkgNameOf := fun u => if u = 100 then some go!"m/b" else none, imports := fun p => if p = go!"m/b" then some go!"m/b" else none
    defs := some [], scope := some [] }
def pkgB (more : Bool) : Package :=
  { env := envB more, name := go!"b", files := if more then [fileB] else [], implicits := [], pkgNameOf := fun _ => none, imports := fun _ => none
    defs := if more then some [some (defI true)] else none, scope := some [some (defI more)] }

def project (v : Variant) (more : Bool) : GoMap Package := (go!"m/a", pkgA v more) :: if more then [(go!"m/b", pkgB true)] else []
def all (v : Variant) (more : Bool) : GoMap Package := [(go!"m/b", pkgB more), (go!"m/a", pkgA v more)]
def objs (more : Bool) : List Obj := [objA, objX, objF more, objI more, (mM more).obj]

def run (v : Variant) (more : Bool) : Run := index deps opts ord writer (.ok (project v more, all v more))

/-- The occurrences of `a.go`: the import, the function and its parameter, the qualifier and the type, the qualifier and the function of the
other package, and the call of the method.  If `m/b` is indexed, the function is deprecated, and the method has another symbol. -/
def occurrences (more : Bool) : List Occurrence :=
  [ ⟨[0, 8, 9], go!"scip-go gomod m v1 `m/a`/", true, none, false⟩,
    ⟨[0, 21, 24], go!"scip-go gomod m v1 `m/b`/", false, none, false⟩,
    ⟨[0, 40, 41], go!"scip-go gomod m v1 `m/a`/A().", true, some [0, 35, 90], false⟩,
    ⟨[0, 45, 46], go!"local 0", true, none, false⟩,
    ⟨[0, 50, 51], go!"scip-go gomod m v1 `m/b`/", false, none, false⟩,
    ⟨[0, 52, 53], go!"scip-go gomod m v1 `m/b`/I#", false, none, false⟩,
    ⟨[0, 60, 61], go!"scip-go gomod m v1 `m/b`/", false, none, false⟩,
    ⟨[0, 62, 63], go!"scip-go gomod m v1 `m/b`/F().", false, none, more⟩,
    ⟨[0, 70, 71], go!"local 0", false, none, false⟩,
    ⟨[0, 72, 73], if more then go!"scip-go gomod m v1 `m/b`/I#M." else go!"scip-go gomod m v1 `m/b`/I#M().", false, none, false⟩ ]

theorem document_a (more : Bool) : ((run .full more).messages[1]?).map (fun m => match m with | .document p os _ => (p, os) | _ => ([], [])) =
    some (go!"a/a.go", occurrences more) := by
  cases more <;> decide +kernel

/-! ## The hypotheses -/

theorem in_project {v : Variant} {more : Bool} {k : Str} {p : Package} (h : (k, p) ∈ project v more) :
    (k = go!"m/a" ∧ p = pkgA v more) ∨ more = true ∧ k = go!"m/b" ∧ p = pkgB true := by
  cases more <;> simpa [project] using h

theorem in_all {v : Variant} {more : Bool} {k : Str} {p : Package} (h : (k, p) ∈ all v more) :
    (k = go!"m/b" ∧ p = pkgB more) ∨ (k = go!"m/a" ∧ p = pkgA v more) := by
  simpa [all] using h

theorem parsedA (v : Variant) (more : Bool) : ParsedFile (sourceEnv deps (pkgA v more)) (fun q => ((all v more).get q).isSome) (fileA v).decls where
  top_level := by
    intro d hd
    simp only [fileA, declsA, List.mem_cons, List.not_mem_nil, or_false] at hd
    rcases hd with rfl | rfl
    · left; cases v <;> simp only [importsA] <;> free
    · right
      refine ⟨_, _, _, _, _, _, _, rfl, by simp, ?_, ?_⟩
      · cases v <;> simp only [paramsA] <;> free
      · simp only [List.forall_mem_cons, List.not_mem_nil, false_implies, implies_true, and_true]; cases v <;> simp only [bodyA] <;> free
  distinct := by cases v <;> cases more <;> decide +kernel

theorem parsedB : ParsedFile (sourceEnv deps (pkgB true)) (fun q => ((all v true).get q).isSome) fileB.decls where
  top_level := by
    intro d hd
    simp only [fileB, declsB, List.mem_cons, List.not_mem_nil, or_false] at hd
    rcases hd with rfl | rfl
    · left; free
    · right
      refine ⟨_, _, _, _, _, _, _, rfl, by simp, ?_, ?_⟩
      · free
      · simp only [List.forall_mem_cons, List.not_mem_nil, false_implies, implies_true, and_true]; free
  distinct := by cases v <;> decide +kernel

theorem declarationsA (v : Variant) : FilesOk [(fileA v).node] := by
  intro n ds h d hd
  simp only [List.mem_singleton, fileA, SourceFile.node, Node.file.injEq] at h
  obtain ⟨rfl, rfl⟩ := h
  simp only [declsA, List.mem_cons, List.not_mem_nil, or_false] at hd
  rcases hd with rfl | rfl
  · exact ⟨by cases v <;> simp [importsA], by cases v <;> simp [importsA]⟩
  · exact ⟨⟨_, .func⟩, .funcT (by simp)⟩

theorem declarationsB : FilesOk [fileB.node] := by
  intro n ds h d hd
  simp only [List.mem_singleton, fileB, SourceFile.node, Node.file.injEq] at h
  obtain ⟨rfl, rfl⟩ := h
  simp only [declsB, List.mem_cons, List.not_mem_nil, or_false] at hd
  rcases hd with rfl | rfl
  · exact ⟨by simp, by simp⟩
  · exact ⟨⟨_, .func⟩, .funcT (by simp)⟩

theorem imports_ok (v : Variant) (more : Bool) : ∀ (a : Nat) (imported : Str),
    ((pkgA v more).env.position a).col + 1 + imported.length < 2 ^ 31 ∨ ∀ q, (pkgA v more).imports q ≠ some imported := by
  intro p imported
  have := Nat.mod_lt p (show 1000 > 0 by decide)
  by_cases h : imported = go!"m/b"
  · left; subst h; simp only [pkgA, envA]; simp; omega
  · right; intro q; simp only [pkgA]; split
    · simp; exact fun he => h he.symm
    · simp

theorem sourceA (v : Variant) (more : Bool) : TypedSource deps (fun q => ((all v more).get q).isSome) (objs more) (pkgA v more) (fileA v) where
  parsed := parsedA v more
  declarations := declarationsA v
  looked_up := fun i hi r hr => of_decide_eq_true (lookups (P := fun _ r => decide (r ∈ objs more)) (by cases v <;> cases more <;> decide +kernel) i hi r hr)
  imports := imports_ok v more
  import_names := fun uid n a h => (named_imports (by cases v <;> cases more <;> decide +kernel) uid n a h).elim
  apart := by cases v <;> cases more <;> decide +kernel
  declared_at := fun i hi r hr => of_decide_eq_true (lookups (P := fun i d => decide (d.self.pos = i.pos)) (by cases v <;> cases more <;> decide +kernel) i hi r hr)
  no_package_value := fun i hi r hr => notPkg (lookups (P := fun _ o => match o.self.cls with | .pkgName _ => false | _ => true)
    (by cases v <;> cases more <;> decide +kernel) i hi r hr)

theorem sourceB : TypedSource deps (fun q => ((all v true).get q).isSome) (objs true) (pkgB true) fileB where
  parsed := parsedB
  declarations := declarationsB
  looked_up := fun i hi r hr => by simp [pkgB, envB] at hr
  imports := fun _ _ => .inr fun q => by simp [pkgB]
  import_names := fun uid n a h => (named_imports (by cases v <;> decide +kernel) uid n a h).elim
  apart := by cases v <;> decide +kernel
  declared_at := fun i hi r hr => of_decide_eq_true (lookups (P := fun i d => decide (d.self.pos = i.pos)) (by cases v <;> decide +kernel) i hi r hr)
  no_package_value := fun i hi r hr => by simp [pkgB, envB] at hr

theorem packageA (v : Variant) (more : Bool) : TypedPackage deps (fun q => ((all v more).get q).isSome) (objs more) (pkgA v more) where
  files := by
    intro f hf
    simp only [pkgA, List.mem_cons, List.not_mem_nil, or_false] at hf
    subst hf; exact sourceA v more
  positions := by
    intro a
    have := Nat.mod_lt a (show 1000 > 0 by decide)
    refine ⟨Nat.le_refl _, ?_, ?_, ?_⟩ <;> simp only [pkgA, envA] <;> omega
  unquoted := by
    intro o ho
    have hall : ∀ e ∈ defListA ++ useList v more, e.2.self.name.head? ≠ some '"' := by cases v <;> cases more <;> decide +kernel
    rcases ho with ⟨u, h | h⟩ | h
    · exact hall _ (List.mem_append_left _ (mem_of_lookup h))
    · exact hall _ (List.mem_append_right _ (mem_of_lookup h))
    · simp [pkgA] at h
  clauses := by
    intro f hf f' hf' i hi
    simp only [pkgA, List.mem_cons, List.not_mem_nil, or_false] at hf hf'
    subst hf; subst hf'
    have h : ∀ i ∈ identsOf (fileEventsOf deps (all v more) (pkgA v more) (fileA v)), i.pos ≠ 8 := by cases v <;> cases more <;> decide +kernel
    exact h i hi
  clause_names := by
    intro f hf
    simp only [pkgA, List.mem_cons, List.not_mem_nil, or_false] at hf
    subst hf; cases v <;> cases more <;> decide
  fileSet := by
    intro f hf
    simp only [pkgA, List.mem_cons, List.not_mem_nil, or_false] at hf
    subst hf; exact ⟨by cases v <;> rfl, by cases v <;> cases more <;> decide +kernel⟩
  implicits := by intro o ho; simp [pkgA] at ho

theorem packageB : TypedPackage deps (fun q => ((all v true).get q).isSome) (objs true) (pkgB true) where
  files := by
    intro f hf
    simp only [pkgB, if_true, List.mem_cons, List.not_mem_nil, or_false] at hf
    subst hf; exact sourceB
  positions := by
    intro a
    have := Nat.mod_lt a (show 1000 > 0 by decide)
    refine ⟨Nat.le_refl _, ?_, ?_, ?_⟩ <;> simp only [pkgB, envB] <;> omega
  unquoted := by
    intro o ho
    have hall : ∀ e ∈ defListB, e.2.self.name.head? ≠ some '"' := by decide +kernel
    rcases ho with ⟨u, h | h⟩ | h
    · exact hall _ (mem_of_lookup h)
    · simp [pkgB, envB] at h
    · simp [pkgB] at h
  clauses := by
    intro f hf f' hf' i hi
    simp only [pkgB, if_true, List.mem_cons, List.not_mem_nil, or_false] at hf hf'
    subst hf; subst hf'
    have h : ∀ i ∈ identsOf (fileEventsOf deps (all v true) (pkgB true) fileB), i.pos ≠ 108 := by cases v <;> decide +kernel
    exact h i hi
  clause_names := by
    intro f hf
    simp only [pkgB, if_true, List.mem_cons, List.not_mem_nil, or_false] at hf
    subst hf; decide
  fileSet := by
    intro f hf
    simp only [pkgB, if_true, List.mem_cons, List.not_mem_nil, or_false] at hf
    subst hf; exact ⟨rfl, by cases v <;> decide +kernel⟩
  implicits := by intro o ho; simp [pkgB] at ho

/-- The only type. -/
theorem types_of {v : Variant} {more : Bool} {k : Str} {p : Package} (h : (k, p) ∈ all v more) {t : Impl.TypeDef} {ds : List (Option Impl.TypeDef)}
    (hds : p.defs = some ds ∨ p.scope = some ds) (ht : some t ∈ ds) : p = pkgB more ∧ t = defI more := by
  rcases in_all h with ⟨_, rfl⟩ | ⟨_, rfl⟩
  · refine ⟨rfl, ?_⟩
    cases more <;> rcases hds with hds | hds <;> simp [pkgB] at hds <;> subst hds <;> simpa using ht
  · rcases hds with hds | hds <;> simp only [pkgA, Option.some.injEq] at hds <;> subst hds <;> simp at ht

theorem types_ok {v : Variant} {more : Bool} {k : Str} {p : Package} (h : (k, p) ∈ all v more) : TypedTypes (objs more) p where
  asked := by
    intro t ⟨ds, hds, ht⟩ n hn
    obtain ⟨_, rfl⟩ := types_of h hds ht
    simp only [defI, Option.some.injEq] at hn
    subst hn
    refine ⟨?_, by cases v <;> cases more <;> decide +kernel⟩
    intro m hm
    simp only [nI, List.mem_cons, List.not_mem_nil, or_false] at hm
    subst hm
    exact ⟨by simp [objs], _, rfl⟩
  scope := by
    intro ds hds t ht
    obtain ⟨rfl, rfl⟩ := types_of h (.inr hds) ht
    exact ⟨rfl, by cases v <;> cases more <;> decide +kernel⟩

theorem wellFormed (more : Bool) : ∀ o ∈ objs more, WellFormedObj o := by
  have h1 : ∀ o ∈ objs more, '.' ∉ o.self.name := by cases more <;> decide +kernel
  have h2 : ∀ o ∈ objs more, o.self.pkg ≠ some [] ∧ o.self.pkg ≠ some go!"_" ∧ o.self.pkg ≠ none := by cases more <;> decide +kernel
  intro o ho
  refine ⟨h1 o ho, fun p hp => ⟨fun e => (h2 o ho).1 (by rw [hp, e]), fun e => (h2 o ho).2.1 (by rw [hp, e])⟩, ?_, ?_⟩
  · intro h; exact absurd h (h2 o ho).2.2
  · intro h; exact absurd h (h2 o ho).2.2

theorem typed (v : Variant) (more : Bool) : TypedProject deps (project v more) (all v more) (objs more) where
  project_keyed := ⟨by cases v <;> cases more <;> decide, fun k p h => by rcases in_project h with ⟨rfl, rfl⟩ | ⟨_, rfl, rfl⟩ <;> rfl⟩
  all_keyed := ⟨by cases v <;> cases more <;> decide, fun k p h => by rcases in_all h with ⟨rfl, rfl⟩ | ⟨rfl, rfl⟩ <;> rfl⟩
  sub := fun k p h => by rcases in_project h with ⟨rfl, rfl⟩ | ⟨rfl, rfl, rfl⟩ <;> simp [all]
  packages := fun k p h => by
    rcases in_project h with ⟨rfl, rfl⟩ | ⟨rfl, rfl, rfl⟩
    · exact packageA v more
    · exact packageB
  types := fun k p h => types_ok h
  apart := by cases v <;> cases more <;> decide +kernel
  files_apart := by cases v <;> cases more <;> decide +kernel
  coherent := by unfold CoherentObjs; cases v <;> cases more <;> decide +kernel
  wellFormed := wellFormed more

theorem no_packages (more : Bool) : ∀ r ∈ objs more, ∀ q, (entityOf r).cls ≠ .pkgName q := by
  have h : ((objs more).all fun r => match (entityOf r).cls with | .pkgName _ => false | _ => true) = true := by cases more <;> decide +kernel
  intro r hr q hq
  have := List.all_eq_true.1 h r hr
  simp only [hq] at this
  cases this

theorem all_distinct (v : Variant) (more : Bool) : ∀ p, (p.path, p) ∈ project v more → DistinctIdents p := by
  intro p hp
  rcases in_project hp with ⟨_, rfl⟩ | ⟨_, _, rfl⟩
  · unfold DistinctIdents; cases v <;> cases more <;> decide +kernel
  · unfold DistinctIdents; decide +kernel

/-! ### Declarations -/

theorem declares_a {v : Variant} {more : Bool} (i : Ident) (ds : List Descriptor) (q : Nat)
    (h : PackageDeclares (pkgA v more).env ((pkgA v more).files.map SourceFile.node) i ds q) :
    (i, ds, q) = (⟨1, go!"A", 40⟩, [⟨go!"m/a", .nspace⟩, ⟨go!"A", .method⟩], 40) := by
  obtain ⟨n, decls, hf, hd⟩ := h
  simp only [pkgA, List.map_cons, List.map_nil, List.mem_cons, List.not_mem_nil, or_false, SourceFile.node, Node.file.injEq] at hf
  obtain ⟨rfl, rfl⟩ := hf
  cases hd with
  | typ hd =>
    obtain ⟨tok, specs, doc, spec, hm, hs, hd⟩ := hd
    simp only [fileA, declsA, List.mem_cons, Node.genDecl.injEq, reduceCtorEq, List.not_mem_nil, or_false] at hm
    obtain ⟨rfl, rfl, rfl⟩ := hm
    cases v <;> simp only [importsA, List.mem_singleton, List.not_mem_nil] at hs <;> subst hs <;> cases hd
  | func hm hd =>
    simp only [fileA, declsA, List.mem_cons, List.not_mem_nil, or_false] at hm
    rcases hm with rfl | rfl
    · cases hd
    · cases hd with
      | name hr => cases hr; simp [pkgA, envA]
      | result hr hres => cases hres with | result h _ => simp at h
  | var hm ht hd =>
    simp only [fileA, declsA, List.mem_cons, Node.genDecl.injEq, reduceCtorEq, List.not_mem_nil, or_false] at hm
    obtain ⟨rfl, rfl, rfl⟩ := hm
    simp at ht

def declaredB : List (Ident × List Descriptor × Nat) :=
  [ (⟨11, go!"I", 115⟩, [⟨go!"m/b", .nspace⟩, ⟨go!"I", .typ⟩], 115),
    (⟨12, go!"M", 125⟩, [⟨go!"m/b", .nspace⟩, ⟨go!"I", .typ⟩, ⟨go!"M", .term⟩], 125),
    (⟨13, go!"F", 140⟩, [⟨go!"m/b", .nspace⟩, ⟨go!"F", .method⟩], 140) ]

theorem declares_b (i : Ident) (ds : List Descriptor) (q : Nat)
    (h : PackageDeclares (pkgB true).env ((pkgB true).files.map SourceFile.node) i ds q) : (i, ds, q) ∈ declaredB := by
  obtain ⟨n, decls, hf, hd⟩ := h
  simp only [pkgB, if_true, List.map_cons, List.map_nil, List.mem_cons, List.not_mem_nil, or_false, SourceFile.node, Node.file.injEq] at hf
  obtain ⟨rfl, rfl⟩ := hf
  cases hd with
  | typ hd =>
    obtain ⟨tok, specs, doc, spec, hm, hs, hd⟩ := hd
    simp only [fileB, declsB, List.mem_cons, Node.genDecl.injEq, reduceCtorEq, List.not_mem_nil, or_false, false_or] at hm
    obtain ⟨rfl, rfl, rfl⟩ := hm
    simp only [List.mem_singleton] at hs
    subst hs
    cases hd with
    | name => simp [declaredB, pkgB, envB]
    | member hd =>
      cases hd with
      | named hf hi =>
        cases hf with | iface h => ?_
        simp only [List.mem_singleton, Node.field.injEq] at h
        obtain ⟨_, rfl, _⟩ := h
        simp at hi; subst hi; simp [declaredB, pkgB, envB, isIfaceBody]
      | embedded h => simp [isIfaceBody] at h
      | embeddedLit _ hf _ => cases hf with | iface h => simp at h
      | anon hf _ hr =>
        cases hf with | iface h => ?_
        simp only [List.mem_singleton, Node.field.injEq] at h
        obtain ⟨_, _, rfl, _⟩ := h
        cases hr
  | func hm hd =>
    simp only [fileB, declsB, List.mem_cons, List.not_mem_nil, or_false] at hm
    rcases hm with rfl | rfl
    · cases hd
    · cases hd with
      | name hr => cases hr; simp [declaredB, pkgB, envB]
      | result hr hres => cases hres with | result h _ => simp at h
  | var hm ht hd =>
    simp only [fileB, declsB, List.mem_cons, Node.genDecl.injEq, reduceCtorEq, List.not_mem_nil, or_false, false_or] at hm
    obtain ⟨rfl, rfl, rfl⟩ := hm
    simp at ht

theorem documented_b (x : Ident × List Descriptor × Nat) (h : x ∈ declaredB) : ∃ f ∈ (pkgB true).files, ∃ docs, DocumentedAs f.decls x.1 docs := by
  simp only [declaredB, List.mem_cons, List.not_mem_nil, or_false] at h
  rcases h with rfl | rfl | rfl
  · exact ⟨fileB, by simp [pkgB], _, .typ (List.mem_of_getElem (i := 0) (h := by decide) rfl) (List.mem_singleton.2 rfl)⟩
  · refine ⟨fileB, by simp [pkgB], _, .field (pos := 125) (names := [⟨12, go!"M", 125⟩]) (typ := .funcT [] [] []) (own := []) (comment := [])
      (List.mem_of_getElem (i := 0) (h := by decide) rfl) ?_ (.inl (List.mem_singleton.2 rfl))⟩
    refine .child (c := .typeSpec ⟨11, go!"I", 115⟩ [] (.ifaceT [.field 125 [⟨12, go!"M", 125⟩] (.funcT [] [] []) [] []]) []) (by simp [fileB, declsB, children]) ?_
    refine .child (c := .ifaceT [.field 125 [⟨12, go!"M", 125⟩] (.funcT [] [] []) [] []]) (by simp [children]) ?_
    exact .child (by simp [children]) (.refl _)
  · exact ⟨fileB, by simp [pkgB], _, .func (List.mem_of_getElem (i := 1) (h := by decide) rfl)⟩

/-- What is declared where. -/
theorem declared_at {v : Variant} {more : Bool} {p : Package} (hp : (p.path, p) ∈ project v more) {q : Nat} {sym : Str} (h : DeclaredAs p q sym) :
    (p = pkgA v more ∧ q ∈ [8, 40]) ∨ (more = true ∧ p = pkgB true ∧ q ∈ [108, 115, 125, 140]) := by
  rcases in_project hp with ⟨_, rfl⟩ | ⟨h1, _, rfl⟩
  · left
    rcases h with ⟨i, ds, h, _⟩ | ⟨f, hf, h, _⟩
    · have := declares_a i ds q h
      simp only [Prod.mk.injEq] at this
      exact ⟨rfl, by simp [this.2.2]⟩
    · simp only [pkgA, List.head?_cons, Option.some.injEq] at hf
      subst hf; subst h
      exact ⟨rfl, by cases v <;> decide⟩
  · right
    refine ⟨h1, rfl, ?_⟩
    rcases h with ⟨i, ds, h, _⟩ | ⟨f, hf, h, _⟩
    · have := declares_b i ds q h
      simp only [declaredB, List.mem_cons, Prod.mk.injEq, List.not_mem_nil, or_false] at this
      rcases this with ⟨_, _, rfl⟩ | ⟨_, _, rfl⟩ | ⟨_, _, rfl⟩ <;> decide
    · simp only [pkgB, if_true, List.head?_cons, Option.some.injEq] at hf
      subst hf; subst h
      decide

theorem unambiguous (v : Variant) (more : Bool) : Unambiguous (project v more) where
  once := by
    intro p hp q i ds i' ds' h h'
    rcases in_project hp with ⟨_, rfl⟩ | ⟨_, _, rfl⟩
    · have e := (declares_a i ds q h)
      have e' := (declares_a i' ds' q h')
      simp only [Prod.mk.injEq] at e e'
      exact ⟨e.1.trans e'.1.symm, e.2.1.trans e'.2.1.symm⟩
    · have key : ∀ x ∈ declaredB, ∀ y ∈ declaredB, x.2.2 = y.2.2 → x = y := by decide +kernel
      have := key _ (declares_b i ds q h) _ (declares_b i' ds' q h') rfl
      simp only [Prod.mk.injEq, and_true] at this
      exact this
  documented := by
    intro p hp q i ds h
    rcases in_project hp with ⟨_, rfl⟩ | ⟨_, _, rfl⟩
    · have e := (declares_a i ds q h)
      simp only [Prod.mk.injEq] at e
      obtain ⟨rfl, _⟩ := e
      exact ⟨(fileA v), by simp [pkgA], _, .func (List.mem_of_getElem (i := 1) (h := by cases v <;> decide) rfl)⟩
    · exact documented_b _ (declares_b i ds q h)
  clause := by
    intro p hp f hf i ds h
    rcases in_project hp with ⟨_, rfl⟩ | ⟨_, _, rfl⟩
    · simp only [pkgA, List.head?_cons, Option.some.injEq] at hf
      subst hf
      have e := declares_a i ds _ h
      simp [fileA] at e
    · simp only [pkgB, if_true, List.head?_cons, Option.some.injEq] at hf
      subst hf
      have key : ∀ x ∈ declaredB, x.2.2 ≠ 108 := by decide +kernel
      exact key _ (declares_b i ds _ h) rfl
  packages := by
    intro p p' hp hp' q _ _ h h'
    rcases declared_at hp h with ⟨rfl, h1⟩ | ⟨_, rfl, h1⟩ <;> rcases declared_at hp' h' with ⟨rfl, h2⟩ | ⟨_, rfl, h2⟩
    · rfl
    · simp only [List.mem_cons, List.not_mem_nil, or_false] at h1 h2; omega
    · simp only [List.mem_cons, List.not_mem_nil, or_false] at h1 h2; omega
    · rfl
  switches := by
    intro p hp x hx
    rcases in_project hp with ⟨_, rfl⟩ | ⟨_, _, rfl⟩
    · simp [pkgA] at hx
    · simp [pkgB] at hx

theorem namedTypes (v : Variant) (more : Bool) : NamedTypes deps (project v more) (all v more) := by
  have hproj : ∀ {p d t}, ProjectType (project v more) p d t → more = true ∧ p = pkgB true ∧ d = defI true ∧ t = nI true := by
    rintro p d t ⟨h1, h2, ⟨ds, h3, h4⟩, h5, h6⟩
    rcases in_project h1 with ⟨_, rfl⟩ | ⟨h, _, rfl⟩
    · simp only [pkgA, Option.some.injEq] at h3
      subst h3; simp at h4
    · simp only [pkgB, if_true, Option.some.injEq] at h3
      subst h3
      simp only [List.mem_cons, Option.some.injEq, List.not_mem_nil, or_false] at h4
      subst h4
      simp only [defI, Option.some.injEq] at h6
      exact ⟨h, rfl, rfl, h6.symm⟩
  have hdep : ∀ {p d t}, DependencyType (project v more) (all v more) p d t → more = false ∧ d = defI false ∧ t = nI false := by
    rintro p d t ⟨h1, h2, h3, h4, ⟨ds, h5, h6⟩, h7, h8⟩
    obtain ⟨rfl, rfl⟩ := types_of h1 (.inr h5) h6
    cases more with
    | true => simp [pkgB] at h4
    | false =>
      simp only [defI, Option.some.injEq] at h8
      exact ⟨rfl, rfl, h8.symm⟩
  have hmeth : ∀ {b p d t}, KnownType (project v more) (all v more) b p d t → t = nI more := by
    intro b p d t h
    cases b with
    | true => obtain ⟨rfl, _, _, h⟩ := hproj h; exact h
    | false => obtain ⟨rfl, _, h⟩ := hdep h; exact h
  refine ⟨?_, ?_, ?_, ?_, ?_, ?_, ?_, ?_, ?_⟩
  · intro p hp hb
    rcases in_all hp with ⟨_, rfl⟩ | ⟨_, rfl⟩ <;> exact ⟨by cases v <;> cases more <;> decide +kernel, by cases v <;> cases more <;> decide +kernel⟩
  · intro p hp _
    rcases in_project hp with ⟨_, rfl⟩ | ⟨_, _, rfl⟩ <;> exact ⟨rfl, rfl⟩
  · intro p d t h
    obtain ⟨rfl, rfl, rfl, rfl⟩ := hproj h
    refine ⟨fileB, by simp [pkgB], ⟨11, go!"I", 115⟩, by cases v <;> decide +kernel, rfl, rfl, ⟨_, _, List.mem_map.2 ⟨fileB, by simp [pkgB], rfl⟩,
      .typ ⟨_, _, _, _, List.mem_of_getElem (i := 0) (h := by decide) rfl, List.mem_singleton.2 rfl, .name _ _ _ _⟩⟩, ?_⟩
    intro i ds h
    have := declares_b i ds _ h
    simp [declaredB] at this
    exact this
  · intro p d t d' t' h h' _
    obtain ⟨_, _, rfl, _⟩ := hproj h
    obtain ⟨_, _, rfl, _⟩ := hproj h'
    rfl
  · intro p d t d' t' h h' _
    rw [(hdep h).2.1, (hdep h').2.1]
  · intro p d t h
    rw [(hdep h).2.1]
    exact ⟨_, rfl⟩
  · intro b p d t h m hm
    rw [hmeth h] at hm
    simp only [nI, List.mem_singleton] at hm
    subst hm
    exact ⟨_, rfl⟩
  · intro b p d t h m hm x y hx hy
    exact namedBy_unique (typed v more) (unambiguous v more) hx hy
  · intro p d t h b p' d' t' h' m hm
    obtain ⟨rfl, rfl, rfl, rfl⟩ := hproj h
    rw [hmeth h'] at hm
    simp only [nI, List.mem_singleton] at hm
    subst hm
    decide

/-! ### The two cases -/

theorem sameA (v : Variant) : SameSource deps deps (pkgA v false) (pkgA v true) :=
  ⟨rfl, rfl, rfl, rfl, rfl, rfl, rfl, rfl, rfl, rfl, fun _ _ _ => rfl, fun _ _ _ => rfl, fun _ _ _ => .rfl⟩

theorem entities (v : Variant) : ∀ x ∈ (useList v false).zip (useList v true), x.1.1 = x.2.1 ∧ SameEntity deps deps x.1.2 x.2.2 ∧
    (x.2.2.self.pos = x.1.2.self.pos ∨ (100 < x.1.2.self.pos ∧ 100 < x.2.2.self.pos)) := by
  have hmem : ∀ r r' : Obj, r'.self.pkg = r.self.pkg → r'.self.cls = r.self.cls → r'.self.name = r.self.name → r'.self.id = r.self.id →
      entityOf r = r.self → entityOf r' = r'.self → (∀ q, r.self.cls = .pkgName q → r' = r) → SameEntity deps deps r r' := by
    intro r r' h1 h2 h3 h4 h5 h6 h7
    refine ⟨h1, by rw [h2], by rw [h2], fun q h => h7 q (by rw [h2, or_self] at h; exact h), fun path ds _ => ?_⟩
    rw [h5, h6]
    constructor
    · intro h
      cases h with
      | typ h => rw [h3]; exact .typ (h2 ▸ h)
      | const h => rw [h3]; exact .const (h2 ▸ h)
      | var h => rw [h3]; exact .var (h2 ▸ h)
      | func h => rw [h3]; exact .func (h2 ▸ h)
      | method h a b => rw [h3]; exact .method (h2 ▸ h) a b
      | field h a b c d => rw [h3]; exact .field (h2 ▸ h) a b (h4 ▸ c) (h4 ▸ d)
    · intro h
      cases h with
      | typ h => rw [← h3]; exact .typ (h2 ▸ h)
      | const h => rw [← h3]; exact .const (h2 ▸ h)
      | var h => rw [← h3]; exact .var (h2 ▸ h)
      | func h => rw [← h3]; exact .func (h2 ▸ h)
      | method h a b => rw [← h3]; exact .method (h2 ▸ h) a b
      | field h a b c d => rw [← h3]; exact .field (h2 ▸ h) a b (h4 ▸ c) (h4 ▸ d)
  intro x hx
  have hx : x ∈ (useList .full false).zip (useList .full true) := by
    cases v with
    | full => exact hx
    | plain => exact List.mem_append_left [((7, objX), (7, objX)), ((8, (mM false).obj), (8, (mM true).obj))] hx
    | alone => simp [useList] at hx
  simp only [useList, List.zip_cons_cons, List.zip_nil_right, List.mem_cons, List.not_mem_nil, or_false] at hx
  rcases hx with rfl | rfl | rfl | rfl | rfl | rfl <;>
    refine ⟨rfl, hmem _ _ rfl rfl rfl rfl rfl rfl (fun q h => ?_), ?_⟩
  any_goals first | rfl | (cases h; done)
  all_goals decide

theorem lookup_zip {α : Type} (u : Nat) : ∀ l l' : List (Nat × α), l.map (·.1) = l'.map (·.1) → (l.lookup u = none ∧ l'.lookup u = none) ∨
    ∃ x ∈ l.zip l', l.lookup u = some x.1.2 ∧ l'.lookup u = some x.2.2
  | [], [], _ => .inl ⟨rfl, rfl⟩
  | [], _ :: _, h => by simp at h
  | _ :: _, [], h => by simp at h
  | (a, x) :: l, (b, y) :: l', h => by
    simp only [List.map_cons, List.cons.injEq] at h
    obtain ⟨rfl, h⟩ := h
    by_cases e : u = a
    · subst e
      exact .inr ⟨((u, x), (u, y)), by simp, by simp [List.lookup], by simp [List.lookup]⟩
    · have e' : (u == a) = false := by simp [e]
      simp only [List.lookup, e']
      rcases lookup_zip u l l' h with h | ⟨z, hz, h⟩
      · exact .inl h
      · exact .inr ⟨z, by rw [List.zip_cons_cons]; exact List.mem_cons_of_mem _ hz, h⟩

theorem extended (v : Variant) : Extended deps deps (project v false) (all v false) (project v true) (all v true) where
  packages := by
    intro p hp
    rcases in_project hp with ⟨_, rfl⟩ | ⟨h, _⟩
    · exact ⟨pkgA v true, by simp [project, pkgA, Package.path, envA], sameA v⟩
    · simp at h
  uses := by
    intro p p' hp hp' hs u
    rcases in_project hp with ⟨_, rfl⟩ | ⟨h, _⟩
    · rcases in_project hp' with ⟨_, rfl⟩ | ⟨_, _, rfl⟩
      · rcases lookup_zip u (useList v false) (useList v true) (by cases v <;> rfl) with h | ⟨x, hx, h1, h2⟩
        · exact .inl h
        · obtain ⟨_, he, hpos⟩ := entities v x hx
          refine .inr ⟨x.1.2, x.2.2, h1, h2, he, ?_, ?_⟩
          · intro q hq sym hd
            rcases hpos with h | ⟨a, b⟩
            · exact h
            · exfalso
              rcases hd with hd | hd
              · rcases declared_at hq hd with ⟨_, h⟩ | ⟨h, _⟩
                · simp only [List.mem_cons, List.not_mem_nil, or_false] at h; omega
                · simp at h
              · rcases declared_at hq hd with ⟨_, h⟩ | ⟨h, _⟩
                · simp only [List.mem_cons, List.not_mem_nil, or_false] at h; omega
                · simp at h
          · intro f hf i hi he
            rcases hpos with h | ⟨a, b⟩
            · exact h
            · exfalso
              simp only [pkgA, List.mem_cons, List.not_mem_nil, or_false] at hf
              subst hf
              have key : ∀ i ∈ identsOf (fileEventsOf deps (all v false) (pkgA v false) (fileA v)), i.pos < 100 := by cases v <;> decide +kernel
              have := key i hi
              rcases he with he | he <;> omega
      · have := hs.path; simp [pkgA, pkgB, Package.path, envA, envB] at this
    · simp at h
  loaded := by
    intro p hp path hr
    constructor
    · intro q hq
      rcases in_all hq with ⟨rfl, rfl⟩ | ⟨rfl, rfl⟩
      · exact ⟨pkgB true, by simp [all], rfl, rfl⟩
      · exact ⟨pkgA v true, by simp [all], rfl, rfl⟩
    · intro q' hq'
      rcases in_all hq' with ⟨rfl, rfl⟩ | ⟨rfl, rfl⟩
      · exact ⟨pkgB false, by simp [all]⟩
      · exact ⟨pkgA v false, by simp [all]⟩

/-- C95 for the sample. -/
example (v : Variant) (path path' : Str) (occs occs' : List Occurrence) (syms syms' : List (SymInfo × List Str))
    (hm : (run v false).messages[1]? = some (.document path occs syms)) (hm' : (run v true).messages[1]? = some (.document path' occs' syms')) :
    path' = path ∧ (syms.map (·.1)).Perm (syms'.map (·.1)) ∧
    SameBesides (NewReference deps deps (project v false) (all v false) (project v true) (all v true) (pkgA v false) (pkgA v true)) occs occs' := by
  obtain ⟨h1, h2⟩ := C95_document deps deps opts opts ord ord writer writer (project v false) (all v false) (project v true) (all v true) (objs false) (objs true)
    (typed v false) (typed v true) ord_ok ord_ok (namedTypes v false) (namedTypes v true) (all_distinct v false) (all_distinct v true) (no_packages false)
    (no_packages true) (unambiguous v false) (unambiguous v true) (extended v) (pkgA v false) (pkgA v true) (sameA v) (fileA v) 0 0 rfl rfl path path' occs occs'
    syms syms' hm hm'
  exact ⟨h1 rfl, h2⟩

/-- In the second variant only a deprecation mark is added. -/
theorem plain : PlainlyDeclared deps (project .plain false) (project .plain true) (pkgA .plain true) := by
  intro u r' path q' sym hu hpk hq' hv hnew hd
  rcases in_project hq' with ⟨_, rfl⟩ | ⟨_, _, rfl⟩
  · exact absurd (by simp [project, pkgA, Package.path, envA]) (hnew (pkgA .plain false))
  · have := mem_of_lookup (show (useList .plain true).lookup u = some r' from hu)
    simp only [useList, List.mem_cons, Prod.mk.injEq, List.not_mem_nil, or_false] at this
    rcases this with ⟨_, rfl⟩ | ⟨_, rfl⟩ | ⟨_, rfl⟩ | ⟨_, rfl⟩
    · rcases declared_at hq' hd with ⟨_, h⟩ | ⟨_, _, h⟩ <;> simp [objQ, Obj.plain] at h
    · exact ⟨(Option.some.inj hpk), fileB, by simp [pkgB], ⟨11, go!"I", 115⟩, rfl,
        .typ (List.mem_of_getElem (i := 0) (h := by decide) rfl) (List.mem_singleton.2 rfl) rfl rfl⟩
    · rcases declared_at hq' hd with ⟨_, h⟩ | ⟨_, _, h⟩ <;> simp [objQ, Obj.plain] at h
    · exact ⟨(Option.some.inj hpk), fileB, by simp [pkgB], ⟨13, go!"F", 140⟩, rfl,
        .func (List.mem_of_getElem (i := 1) (h := by decide) rfl) rfl rfl⟩

example (path path' : Str) (occs occs' : List Occurrence) (syms syms' : List (SymInfo × List Str))
    (hm : (run .plain false).messages[1]? = some (.document path occs syms))
    (hm' : (run .plain true).messages[1]? = some (.document path' occs' syms')) :
    List.Forall₂ (fun a b => b = a ∨ b = { a with deprecated := true } ∧
      ∃ r', NewlyIndexed (project .plain false) (project .plain true) r' a.symbol true) occs occs' :=
  C95_only_marks deps deps opts opts ord ord writer writer _ _ _ _ (objs false) (objs true)
    (typed .plain false) (typed .plain true) ord_ok ord_ok (namedTypes .plain false) (namedTypes .plain true) (all_distinct .plain false)
    (all_distinct .plain true) (no_packages false) (no_packages true) (unambiguous .plain false) (unambiguous .plain true) (extended .plain)
    (pkgA .plain false) (pkgA .plain true) (sameA .plain) (fileA .plain) 0 0 rfl rfl path path' occs occs' syms syms' hm hm' plain

/-- The occurrences of the last variant are the same in both cases. -/
example (path path' : Str) (occs occs' : List Occurrence) (syms syms' : List (SymInfo × List Str))
    (hm : (run .alone false).messages[1]? = some (.document path occs syms))
    (hm' : (run .alone true).messages[1]? = some (.document path' occs' syms')) : occs' = occs :=
  C95_nothing_new deps deps opts opts ord ord writer writer _ _ _ _ (objs false) (objs true)
    (typed .alone false) (typed .alone true) ord_ok ord_ok (namedTypes .alone false) (namedTypes .alone true) (all_distinct .alone false)
    (all_distinct .alone true) (no_packages false) (no_packages true) (unambiguous .alone false) (unambiguous .alone true) (extended .alone)
    (pkgA .alone false) (pkgA .alone true) (sameA .alone) (fileA .alone) 0 0 rfl rfl path path' occs occs' syms syms' hm hm'
    (fun u r' pkg q' hu => by have := mem_of_lookup (show (useList .alone true).lookup u = some r' from hu); simp [useList] at this)

/-- The exceptions are real: the reference to the method of the interface has another symbol if its package is indexed too. -/
theorem _root_.Verif.C95_interface_method_differs : ∃ occs occs' : List Occurrence,
    ((run .full false).messages[1]?).map (fun m => match m with | .document p os _ => (p, os) | _ => ([], [])) = some (go!"a/a.go", occs) ∧
    ((run .full true).messages[1]?).map (fun m => match m with | .document p os _ => (p, os) | _ => ([], [])) = some (go!"a/a.go", occs') ∧
    (⟨[0, 72, 73], go!"scip-go gomod m v1 `m/b`/I#M().", false, none, false⟩ : Occurrence) ∈ occs ∧
    (⟨[0, 72, 73], go!"scip-go gomod m v1 `m/b`/I#M.", false, none, false⟩ : Occurrence) ∈ occs' ∧
    (∀ a ∈ occs', a.range = [0, 72, 73] → a.symbol ≠ go!"scip-go gomod m v1 `m/b`/I#M().") :=
  ⟨occurrences false, occurrences true, document_a false, document_a true, by decide +kernel, by decide +kernel, by decide +kernel⟩

end Verif.ModularitySample
