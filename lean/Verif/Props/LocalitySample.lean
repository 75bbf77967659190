import Verif.Props.Locality
import Verif.Props.ModularitySample
/-!
# A project meets the hypotheses of C96, and they are needed

```go
// m/c/c.go                     // m/c/d.go            // body edited             // comment edited
package c                       package c              package c                  package c
func G(x int) { F(); x }        func F() {}            func F() { y := 1 }        // Deprecated: no.
                                                                                  func F() {}
```

The three versions of the second file are at positions (and nodes) of their own.
-/
namespace Verif.LocalitySample
open Verif Spec Index IndexSample

/-- The versions of the second file. -/
inductive Version
  | before
  | body
  | comment

def base : Version → Nat
  | .before => 100
  | .body => 200
  | .comment => 300

def objG : Obj := .plain ⟨1, .func (some none), go!"G", some go!"m/c", 40⟩
def objX : Obj := .plain ⟨2, .var false, go!"x", some go!"m/c", 45⟩
def objF (v : Version) : Obj := .plain ⟨4, .func (some none), go!"F", some go!"m/c", base v + 40⟩
def objY : Obj := .plain ⟨5, .var false, go!"y", some go!"m/c", 260⟩

def useList (v : Version) : List (Nat × Obj) := [(5, objF v), (6, objX)]
def defList (v : Version) : List (Nat × Obj) := [(1, objG), (2, objX), (base v + 1, objF v)] ++ match v with | .body => [(202, objY)] | _ => []

def declsC : List Node :=
  [ .funcDecl [] ⟨1, go!"G", 40⟩ (.funcT [] [.field 45 [⟨2, go!"x", 45⟩] (.ident ⟨3, go!"int", 50⟩) [] []] [])
      [.block [.other [.ident ⟨5, go!"F", 60⟩], .other [.ident ⟨6, go!"x", 70⟩]]] 35 90 [] ]
def bodyF : Version → List Node
  | .body => [.other [.ident ⟨202, go!"y", 260⟩]]
  | _ => []
def docF : Version → Str
  | .comment => go!"Deprecated: no."
  | _ => []
def declsD (v : Version) : List Node :=
  [ .funcDecl [] ⟨base v + 1, go!"F", base v + 40⟩ (.funcT [] [] []) [.block (bodyF v)] (base v + 35) (base v + 90) (docF v) ]

def fileC : SourceFile := ⟨go!"/w/m/c/c.go", go!"/w/m/c/c.go", 0, ⟨0, go!"c", 8⟩, declsC, none⟩
def fileD (v : Version) : SourceFile := ⟨go!"/w/m/c/d.go", go!"/w/m/c/d.go", base v / 100, ⟨base v, go!"c", base v + 8⟩, declsD v, none⟩

def env (v : Version) : PkgEnv :=
  { pkgPath := go!"m/c", module := modP, defs := fun u => (defList v).lookup u, uses := fun u => (useList v).lookup u, anonKey := fun _ => []
    signature := fun o => o.self.name, position := fun p => ⟨1, p % 1000 + 1⟩ }
def pkg (v : Version) : Package :=
  { env := env v, name := go!"c", files := [fileC, fileD v], implicits := [], pkgNameOf := fun _ => none, imports := fun _ => none
    defs := some [], scope := some [] }

def project (v : Version) : GoMap Package := [(go!"m/c", pkg v)]
def objs (v : Version) : List Obj := [objG, objX, objF v, objY]

def run (v : Version) : Run := index deps opts ord writer (.ok (project v, project v))

/-- The occurrences of `c.go`. -/
def occurrences (dep : Bool) : List Occurrence :=
  [ ⟨[0, 8, 9], go!"scip-go gomod m v1 `m/c`/", true, none, false⟩,
    ⟨[0, 40, 41], go!"scip-go gomod m v1 `m/c`/G().", true, some [0, 35, 90], false⟩,
    ⟨[0, 45, 46], go!"local 0", true, none, false⟩,
    ⟨[0, 60, 61], go!"scip-go gomod m v1 `m/c`/F().", false, none, dep⟩,
    ⟨[0, 70, 71], go!"local 0", false, none, false⟩ ]

theorem document_c (v : Version) : ((run v).messages[1]?).map (fun m => match m with | .document p os _ => (p, os) | _ => ([], [])) =
    some (go!"c/c.go", occurrences (match v with | .comment => true | _ => false)) := by
  cases v <;> decide +kernel

/-! ## The hypotheses -/

theorem in_project {v : Version} {k : Str} {p : Package} (h : (k, p) ∈ project v) : k = go!"m/c" ∧ p = pkg v := by simpa [project] using h

theorem in_files {v : Version} {f : SourceFile} (h : f ∈ (pkg v).files) : f = fileC ∨ f = fileD v := by simpa [pkg] using h

theorem parsed (v : Version) (f : SourceFile) (h : f ∈ (pkg v).files) :
    ParsedFile (sourceEnv deps (pkg v)) (fun q => ((project v).get q).isSome) f.decls where
  top_level := by
    intro d hd
    right
    rcases in_files h with rfl | rfl
    · simp only [fileC, declsC, List.mem_cons, List.not_mem_nil, or_false] at hd
      subst hd
      refine ⟨_, _, _, _, _, _, _, rfl, by simp, ?_, ?_⟩
      · free
      · simp only [List.forall_mem_cons, List.not_mem_nil, false_implies, implies_true, and_true]; free
    · simp only [fileD, declsD, List.mem_cons, List.not_mem_nil, or_false] at hd
      subst hd
      refine ⟨_, _, _, _, _, _, _, rfl, by simp, ?_, ?_⟩
      · free
      · simp only [List.forall_mem_cons, List.not_mem_nil, false_implies, implies_true, and_true]; cases v <;> simp only [bodyF] <;> free
  distinct := by rcases in_files h with rfl | rfl <;> cases v <;> decide +kernel

theorem declarations (v : Version) (f : SourceFile) (h : f ∈ (pkg v).files) : FilesOk [f.node] := by
  intro n ds hn d hd
  simp only [List.mem_singleton, SourceFile.node, Node.file.injEq] at hn
  obtain ⟨rfl, rfl⟩ := hn
  rcases in_files h with rfl | rfl
  · simp only [fileC, declsC, List.mem_cons, List.not_mem_nil, or_false] at hd
    subst hd
    exact ⟨⟨_, .func⟩, .funcT (by simp)⟩
  · simp only [fileD, declsD, List.mem_cons, List.not_mem_nil, or_false] at hd
    subst hd
    exact ⟨⟨_, .func⟩, .funcT (by simp)⟩

theorem source (v : Version) (f : SourceFile) (h : f ∈ (pkg v).files) : TypedSource deps (fun q => ((project v).get q).isSome) (objs v) (pkg v) f where
  parsed := parsed v f h
  declarations := declarations v f h
  looked_up := fun i hi r hr => of_decide_eq_true (lookups (P := fun _ r => decide (r ∈ objs v))
    (by rcases in_files h with rfl | rfl <;> cases v <;> decide +kernel) i hi r hr)
  imports := fun _ _ => .inr fun q => by simp [pkg]
  import_names := fun uid n a hm => (named_imports (by rcases in_files h with rfl | rfl <;> cases v <;> decide +kernel) uid n a hm).elim
  apart := by rcases in_files h with rfl | rfl <;> cases v <;> decide +kernel
  declared_at := fun i hi r hr => of_decide_eq_true (lookups (P := fun i d => decide (d.self.pos = i.pos))
    (by rcases in_files h with rfl | rfl <;> cases v <;> decide +kernel) i hi r hr)
  no_package_value := fun i hi r hr => notPkg (lookups (P := fun _ o => match o.self.cls with | .pkgName _ => false | _ => true)
    (by rcases in_files h with rfl | rfl <;> cases v <;> decide +kernel) i hi r hr)

theorem package (v : Version) : TypedPackage deps (fun q => ((project v).get q).isSome) (objs v) (pkg v) where
  files := source v
  positions := by
    intro a
    have := Nat.mod_lt a (show 1000 > 0 by decide)
    refine ⟨Nat.le_refl _, ?_, ?_, ?_⟩ <;> simp only [pkg, env] <;> omega
  unquoted := by
    intro o ho
    have hall : ∀ e ∈ defList v ++ useList v, e.2.self.name.head? ≠ some '"' := by cases v <;> decide +kernel
    rcases ho with ⟨u, h | h⟩ | h
    · exact hall _ (List.mem_append_left _ (mem_of_lookup h))
    · exact hall _ (List.mem_append_right _ (mem_of_lookup h))
    · simp [pkg] at h
  clauses := by
    have h : ∀ f ∈ (pkg v).files, ∀ f' ∈ (pkg v).files, ∀ i ∈ identsOf (fileEventsOf deps (project v) (pkg v) f), i.pos ≠ f'.name.pos := by
      intro f hf f' hf'
      rcases in_files hf with rfl | rfl <;> rcases in_files hf' with rfl | rfl <;> cases v <;> decide +kernel
    exact h
  clause_names := by
    intro f hf
    rcases in_files hf with rfl | rfl <;> cases v <;> decide
  fileSet := by
    intro f hf
    rcases in_files hf with rfl | rfl <;> cases v <;> exact ⟨rfl, by decide +kernel⟩
  implicits := by intro o ho; simp [pkg] at ho

theorem wellFormed (v : Version) : ∀ o ∈ objs v, WellFormedObj o := by
  have h1 : ∀ o ∈ objs v, '.' ∉ o.self.name := by cases v <;> decide +kernel
  have h2 : ∀ o ∈ objs v, o.self.pkg ≠ some [] ∧ o.self.pkg ≠ some go!"_" ∧ o.self.pkg ≠ none := by cases v <;> decide +kernel
  intro o ho
  refine ⟨h1 o ho, fun p hp => ⟨fun e => (h2 o ho).1 (by rw [hp, e]), fun e => (h2 o ho).2.1 (by rw [hp, e])⟩, ?_, ?_⟩
  · intro h; exact absurd h (h2 o ho).2.2
  · intro h; exact absurd h (h2 o ho).2.2

theorem types_ok (v : Version) : TypedTypes (objs v) (pkg v) where
  asked := by
    intro t ⟨ds, hds, ht⟩
    rcases hds with hds | hds <;> simp only [pkg, Option.some.injEq] at hds <;> subst hds <;> simp at ht
  scope := by
    intro ds hds t ht
    simp only [pkg, Option.some.injEq] at hds; subst hds; simp at ht

theorem typed (v : Version) : TypedProject deps (project v) (project v) (objs v) where
  project_keyed := ⟨by cases v <;> decide, fun k p h => by obtain ⟨rfl, rfl⟩ := in_project h; rfl⟩
  all_keyed := ⟨by cases v <;> decide, fun k p h => by obtain ⟨rfl, rfl⟩ := in_project h; rfl⟩
  sub := fun k p h => h
  packages := fun k p h => by obtain ⟨rfl, rfl⟩ := in_project h; exact package v
  types := fun k p h => by obtain ⟨rfl, rfl⟩ := in_project h; exact types_ok v
  apart := by cases v <;> decide +kernel
  files_apart := by cases v <;> decide +kernel
  coherent := by unfold CoherentObjs; cases v <;> decide +kernel
  wellFormed := wellFormed v

theorem no_packages (v : Version) : ∀ r ∈ objs v, ∀ q, (entityOf r).cls ≠ .pkgName q := by
  have h : ((objs v).all fun r => match (entityOf r).cls with | .pkgName _ => false | _ => true) = true := by cases v <;> decide +kernel
  intro r hr q hq
  have := List.all_eq_true.1 h r hr
  simp only [hq] at this
  cases this

theorem all_distinct (v : Version) : ∀ p, (p.path, p) ∈ project v → DistinctIdents p := by
  intro p hp
  obtain ⟨_, rfl⟩ := in_project hp
  unfold DistinctIdents; cases v <;> decide +kernel

/-! ### Declarations -/

theorem declares_c {v : Version} {i : Ident} {ds : List Descriptor} {q : Nat} (h : DeclsDeclare (pkg v).env fileC.decls i ds q) :
    (i, ds, q) = (⟨1, go!"G", 40⟩, [⟨go!"m/c", .nspace⟩, ⟨go!"G", .method⟩], 40) := by
  cases h with
  | typ h =>
    obtain ⟨tok, specs, doc, spec, hm, _⟩ := h
    simp [fileC, declsC] at hm
  | func hm hd =>
    simp only [fileC, declsC, List.mem_cons, List.not_mem_nil, or_false] at hm
    subst hm
    cases hd with
    | name hr => cases hr; simp [pkg, env]
    | result hr hres => cases hres with | result h _ => simp at h
  | var hm => simp [fileC, declsC] at hm

theorem declares_d {v : Version} {i : Ident} {ds : List Descriptor} {q : Nat} (h : DeclsDeclare (pkg v).env (fileD v).decls i ds q) :
    (i, ds, q) = (⟨base v + 1, go!"F", base v + 40⟩, [⟨go!"m/c", .nspace⟩, ⟨go!"F", .method⟩], base v + 40) := by
  cases h with
  | typ h =>
    obtain ⟨tok, specs, doc, spec, hm, _⟩ := h
    simp [fileD, declsD] at hm
  | func hm hd =>
    simp only [fileD, declsD, List.mem_cons, List.not_mem_nil, or_false] at hm
    subst hm
    cases hd with
    | name hr => cases hr; simp [pkg, env]
    | result hr hres => cases hres with | result h _ => simp at h
  | var hm => simp [fileD, declsD] at hm

theorem declares {v : Version} {i : Ident} {ds : List Descriptor} {q : Nat}
    (h : PackageDeclares (pkg v).env ((pkg v).files.map SourceFile.node) i ds q) :
    (i, ds, q) = (⟨1, go!"G", 40⟩, [⟨go!"m/c", .nspace⟩, ⟨go!"G", .method⟩], 40) ∨
    (i, ds, q) = (⟨base v + 1, go!"F", base v + 40⟩, [⟨go!"m/c", .nspace⟩, ⟨go!"F", .method⟩], base v + 40) := by
  obtain ⟨n, decls, hf, hd⟩ := h
  obtain ⟨f, hf', e⟩ := List.mem_map.1 hf
  simp only [SourceFile.node, Node.file.injEq] at e
  obtain ⟨rfl, rfl⟩ := e
  rcases in_files hf' with rfl | rfl
  · exact .inl (declares_c hd)
  · exact .inr (declares_d hd)

theorem declared_f (v : Version) : PackageDeclares (pkg v).env ((pkg v).files.map SourceFile.node) ⟨base v + 1, go!"F", base v + 40⟩
    [⟨go!"m/c", .nspace⟩, ⟨go!"F", .method⟩] (base v + 40) :=
  ⟨_, _, List.mem_map.2 ⟨fileD v, by simp [pkg], rfl⟩, .func (List.mem_singleton.2 rfl) (.name (r := []) .func)⟩

theorem base_large (v : Version) : 100 ≤ base v := by cases v <;> decide

theorem unambiguous (v : Version) : Unambiguous (project v) where
  once := by
    intro p hp q i ds i' ds' h h'
    obtain ⟨_, rfl⟩ := in_project hp
    have := base_large v
    rcases declares h with e | e <;> rcases declares h' with e' | e' <;> simp only [Prod.mk.injEq] at e e'
    · exact ⟨e.1.trans e'.1.symm, e.2.1.trans e'.2.1.symm⟩
    · omega
    · omega
    · exact ⟨e.1.trans e'.1.symm, e.2.1.trans e'.2.1.symm⟩
  documented := by
    intro p hp q i ds h
    obtain ⟨_, rfl⟩ := in_project hp
    rcases declares h with e | e <;> simp only [Prod.mk.injEq] at e <;> obtain ⟨rfl, _⟩ := e
    · exact ⟨fileC, by simp [pkg], _, .func (List.mem_singleton.2 rfl)⟩
    · exact ⟨fileD v, by simp [pkg], _, .func (List.mem_singleton.2 rfl)⟩
  clause := by
    intro p hp f hf i ds h
    obtain ⟨_, rfl⟩ := in_project hp
    simp only [pkg, List.head?_cons, Option.some.injEq] at hf
    subst hf
    have := base_large v
    rcases declares h with e | e <;> simp only [Prod.mk.injEq, fileC] at e <;> omega
  packages := by
    intro p p' hp hp' q _ _ h h'
    obtain ⟨_, rfl⟩ := in_project hp
    obtain ⟨_, rfl⟩ := in_project hp'
    rfl
  switches := by
    intro p hp x hx
    obtain ⟨_, rfl⟩ := in_project hp
    simp [pkg] at hx

theorem namedTypes (v : Version) : NamedTypes deps (project v) (project v) := by
  have hproj : ∀ {p d t}, ¬ ProjectType (project v) p d t := by
    rintro p d t ⟨h1, h2, ⟨ds, h3, h4⟩, h5, h6⟩
    obtain ⟨_, rfl⟩ := in_project h1
    simp only [pkg, Option.some.injEq] at h3
    subst h3; simp at h4
  have hdep : ∀ {p d t}, ¬ DependencyType (project v) (project v) p d t := by
    rintro p d t ⟨h1, h2, h3, h4, ⟨ds, h5, h6⟩, h7, h8⟩
    obtain ⟨_, rfl⟩ := in_project h1
    simp only [pkg, Option.some.injEq] at h5
    subst h5; simp at h6
  have hno : ∀ {b p d t}, ¬ KnownType (project v) (project v) b p d t := by
    intro b p d t h
    cases b with
    | true => exact hproj h
    | false => exact hdep h
  refine ⟨?_, ?_, ?_, ?_, ?_, ?_, ?_, ?_, ?_⟩
  · intro p hp hb
    obtain ⟨_, rfl⟩ := in_project hp
    exact ⟨by cases v <;> decide +kernel, by cases v <;> decide +kernel⟩
  · intro p hp _
    obtain ⟨_, rfl⟩ := in_project hp
    exact ⟨rfl, rfl⟩
  · intro p d t h; exact (hproj h).elim
  · intro p d t d' t' h; exact (hproj h).elim
  · intro p d t d' t' h; exact (hdep h).elim
  · intro p d t h; exact (hdep h).elim
  · intro b p d t h; exact (hno h).elim
  · intro b p d t h; exact (hno h).elim
  · intro p d t h; exact (hproj h).elim

theorem ownPositions (v : Version) : OwnPositions deps (pkg v) where
  identifiers := by
    intro f hf
    rcases in_files hf with rfl | rfl <;> cases v <;> decide +kernel
  declared := by
    intro f hf i ds q h
    rcases in_files hf with rfl | rfl
    · have := declares_c h
      simp only [Prod.mk.injEq] at this
      rw [this.2.2]; rfl
    · have := declares_d h
      simp only [Prod.mk.injEq] at this
      rw [this.2.2]; cases v <;> rfl

/-! ### The edit -/

theorem declaredAs_f {v : Version} {sym : Str} : DeclaredAs (pkg v) (base v + 40) sym ↔ sym = go!"scip-go gomod m v1 `m/c`/F()." := by
  have e : (pkg v).env.fromDescriptors [⟨go!"m/c", .nspace⟩, ⟨go!"F", .method⟩] = go!"scip-go gomod m v1 `m/c`/F()." := by cases v <;> decide +kernel
  have hb := base_large v
  constructor
  · rintro (⟨i, ds, h, rfl⟩ | ⟨f, h1, h2, _⟩)
    · rcases declares h with h | h <;> simp only [Prod.mk.injEq] at h
      · omega
      · rw [h.2.1]; exact e
    · simp only [pkg, List.head?_cons, Option.some.injEq] at h1
      subst h1
      simp only [fileC] at h2; omega
  · rintro rfl
    exact .inl ⟨_, _, declared_f v, e.symm⟩

theorem named_f {v : Version} {path : Str} (hpath : some go!"m/c" = some path) {sym : Str} :
    NamedInProject (project v) path (objF v) sym ↔ sym = go!"scip-go gomod m v1 `m/c`/F()." := by
  simp only [Option.some.injEq] at hpath
  subst hpath
  constructor
  · rintro ⟨p, h1, _, h3⟩
    obtain ⟨_, rfl⟩ := in_project h1
    exact declaredAs_f.1 h3
  · rintro rfl
    exact ⟨pkg v, by simp [project, pkg, Package.path, env], by simp [variants, pkg, Package.path, env], declaredAs_f.2 rfl⟩

theorem target_f {v : Version} {sym : Str} : NamedBy deps (project v) (project v) (objF v) sym ↔ sym = go!"scip-go gomod m v1 `m/c`/F()." := by
  constructor
  · rintro ⟨_, _, path, h1, _, h | ⟨h, _⟩⟩
    · exact (named_f h1).1 h
    · exact absurd ((named_f h1).2 rfl) (h _)
  · rintro rfl
    exact ⟨by simp [objF, Obj.plain], by simp [objF, Obj.plain], go!"m/c", rfl, by decide, .inl ((named_f rfl).2 rfl)⟩

theorem target_x {v : Version} {sym : Str} : ¬ DeclaredAs (pkg v) 45 sym := by
  have hb := base_large v
  rintro (⟨i, ds, h, rfl⟩ | ⟨f, h1, h2, _⟩)
  · rcases declares h with h | h <;> simp only [Prod.mk.injEq] at h <;> omega
  · simp only [pkg, List.head?_cons, Option.some.injEq] at h1
    subst h1
    simp [fileC] at h2

theorem named_x {v : Version} {path : Str} {sym : Str} : ¬ NamedInProject (project v) path objX sym := by
  rintro ⟨p, h1, _, h3⟩
  obtain ⟨_, rfl⟩ := in_project h1
  exact target_x h3

theorem below_cases {n m : Node} (h : Below n m) : n = m ∨ ∃ c ∈ children n, Below c m := by
  cases h with
  | refl => exact .inl rfl
  | child hc h => exact .inr ⟨_, hc, h⟩

theorem no_field {v : Version} {pos : Nat} {names : List Ident} {typ : Node} {own comment : Str}
    (h : Below (.funcDecl [] ⟨base v + 1, go!"F", base v + 40⟩ (.funcT [] [] []) [.block (bodyF v)] (base v + 35) (base v + 90) (docF v))
      (.field pos names typ own comment)) : False := by
  rcases below_cases h with h | ⟨c, hc, h⟩
  · cases h
  simp only [children, List.nil_append, List.mem_cons, List.not_mem_nil, or_false] at hc
  rcases hc with rfl | rfl
  · rcases below_cases h with h | ⟨c, hc, _⟩
    · cases h
    · simp [children] at hc
  rcases below_cases h with h | ⟨c, hc, h⟩
  · cases h
  have : c = .other [.ident ⟨202, go!"y", 260⟩] := by
    cases v <;> simp [children, bodyF] at hc
    exact hc
  subst this
  rcases below_cases h with h | ⟨c, hc, h⟩
  · cases h
  simp only [children, List.mem_singleton] at hc
  subst hc
  rcases below_cases h with h | ⟨c, hc, _⟩
  · cases h
  · simp [children] at hc

theorem deprecated_x {v : Version} : ¬ DeprecatedIn (project v) objX := by
  have hb := base_large v
  rintro ⟨path, p, s, h1, h2, h3, h4, h5⟩
  obtain ⟨_, rfl⟩ := in_project h2
  cases h4 with
  | entity i ds a1 => exact target_x (.inl ⟨i, ds, a1, rfl⟩)
  | clause f a1 a2 => exact target_x (.inr ⟨f, a1, a2, rfl⟩)

theorem deprecated_f {v : Version} : DeprecatedIn (project v) (objF v) ↔ SaysDeprecated (docList (docF v).trimSpace []) := by
  have hb := base_large v
  constructor
  · rintro ⟨path, p, s, h1, h2, h3, h4, h5⟩
    obtain ⟨_, rfl⟩ := in_project h2
    cases h4 with
    | entity i ds a1 a2 a3 a4 a5 a6 =>
      rcases declares a1 with h | h <;> simp only [Prod.mk.injEq, objF, Obj.plain] at h
      · omega
      · obtain ⟨rfl, _⟩ := h
        rw [← a6 (fileD v) (by simp [pkg]) _ (.func (List.mem_singleton.2 rfl))]
        exact h5
    | clause f a1 a2 =>
      simp only [pkg, List.head?_cons, Option.some.injEq] at a1
      subst a1
      simp only [fileC, objF, Obj.plain] at a2; omega
  · intro h
    refine ⟨go!"m/c", pkg v, ⟨_, _, _, _, _⟩, rfl, by simp [project, pkg, Package.path, env], by simp [variants, pkg, Package.path, env],
      .entity _ _ (declared_f v) rfl rfl rfl rfl ?_, h⟩
    intro f hf docs hd
    have hi := documentedAs_in hd
    rcases in_files hf with rfl | rfl
    · exfalso
      have : ∀ i ∈ identifiersList fileC.decls, i.pos < 100 := by decide +kernel
      have := this _ hi
      simp only at this; omega
    · cases hd with
      | typ hm => simp [fileD, declsD] at hm
      | value hm => simp [fileD, declsD] at hm
      | func hm =>
        simp only [fileD, declsD, List.mem_singleton, Node.funcDecl.injEq] at hm
        obtain ⟨_, _, _, _, _, _, rfl⟩ := hm
        rfl
      | field hm hb hi =>
        exfalso
        simp only [fileD, declsD, List.mem_singleton] at hm
        subst hm
        exact no_field hb

/-! ### The two objects -/

theorem same_f : SameTarget deps deps (project .before) (project .before) (project .body) (project .body) fileC (objF .before) (objF .body) where
  here := by intro h; revert h; decide +kernel
  pkgName := by intro q h; simp [objF, Obj.plain] at h
  named := fun sym => target_f.trans target_f.symm
  deprecated := deprecated_f.trans (deprecated_f (v := .before)).symm

theorem same_x : SameTarget deps deps (project .before) (project .before) (project .body) (project .body) fileC objX objX where
  here := fun _ => rfl
  pkgName := fun _ _ => rfl
  named := by
    intro sym
    constructor
    · rintro ⟨h1, h2, path, h3, h4, h | ⟨_, p, ds, h5, h6, h7⟩⟩
      · exact (named_x h).elim
      · obtain ⟨rfl, rfl⟩ := in_project h5
        exact ⟨h1, h2, _, h3, h4, .inr ⟨fun _ => named_x, pkg .before, ds, by simp [project], h6, h7⟩⟩
    · rintro ⟨h1, h2, path, h3, h4, h | ⟨_, p, ds, h5, h6, h7⟩⟩
      · exact (named_x h).elim
      · obtain ⟨rfl, rfl⟩ := in_project h5
        exact ⟨h1, h2, _, h3, h4, .inr ⟨fun _ => named_x, pkg .body, ds, by simp [project], h6, h7⟩⟩
  deprecated := ⟨fun h => (deprecated_x h).elim, fun h => (deprecated_x h).elim⟩

theorem identifiers_c : identifiersList fileC.decls =
    [⟨1, go!"G", 40⟩, ⟨2, go!"x", 45⟩, ⟨3, go!"int", 50⟩, ⟨5, go!"F", 60⟩, ⟨6, go!"x", 70⟩] := by decide +kernel

theorem notEdited : NotEdited deps deps (project .before) (project .before) (project .body) (project .body) (pkg .before) (pkg .body) fileC where
  mem := by simp [pkg]
  mem' := by simp [pkg]
  path := rfl
  module := rfl
  name := rfl
  first := by simp [pkg]
  comments := fun _ => rfl
  fileOf := rfl
  position := rfl
  anonKey := rfl
  defs := by rw [identifiers_c]; decide +kernel
  signature := fun _ _ _ _ => rfl
  objectString := fun _ _ _ _ => rfl
  implicits := fun _ _ => Iff.rfl
  imports := fun _ _ _ _ => rfl
  uses := by
    intro i hi
    rw [identifiers_c] at hi
    simp only [List.mem_cons, List.not_mem_nil, or_false] at hi
    rcases hi with rfl | rfl | rfl | rfl | rfl
    · exact .inl ⟨rfl, rfl⟩
    · exact .inl ⟨rfl, rfl⟩
    · exact .inl ⟨rfl, rfl⟩
    · exact .inr ⟨_, _, rfl, rfl, same_f⟩
    · exact .inr ⟨_, _, rfl, rfl, same_x⟩
  loaded := by
    intro path _
    constructor
    · intro q hq
      obtain ⟨rfl, rfl⟩ := in_project hq
      exact ⟨pkg .body, by simp [project], rfl⟩
    · rintro ⟨q, hq⟩
      obtain ⟨rfl, rfl⟩ := in_project hq
      exact ⟨pkg .before, by simp [project]⟩

/-- The hypotheses of C96 hold of the sample, and there are such documents. -/
example (path path' : Str) (occs occs' : List Occurrence) (syms syms' : List (SymInfo × List Str))
    (hm : (run .before).messages[1]? = some (.document path occs syms)) (hm' : (run .body).messages[1]? = some (.document path' occs' syms')) :
    path' = path ∧ occs' = occs ∧ (syms.map (·.1)).Perm (syms'.map (·.1)) := by
  obtain ⟨a, b, c, _⟩ := C96_document deps deps opts opts ord ord writer writer (project .before) (project .before) (project .body) (project .body)
    (objs .before) (objs .body) (typed .before) (typed .body) ord_ok ord_ok (namedTypes .before) (namedTypes .body)
    (all_distinct .before) (all_distinct .body) (no_packages .before) (no_packages .body) (unambiguous .before) (unambiguous .body)
    (pkg .before) (pkg .body) fileC notEdited (ownPositions .before) (ownPositions .body) 0 0 rfl rfl path path' occs occs' syms syms' hm hm'
  exact ⟨a rfl, b, c⟩

/-- A comment in another file can change the document: the reference to `F` in `c.go` is marked as deprecated once the comment of `F`, in
`d.go`, says so.  This is why C96 asks that what the file refers to is deprecated or not as before. -/
theorem _root_.Verif.C96_comment_differs :
    (((run .before).messages[1]?).map fun m => match m with | .document p os _ => (p, os) | _ => ([], [])) = some (go!"c/c.go", occurrences false) ∧
    (((run .comment).messages[1]?).map fun m => match m with | .document p os _ => (p, os) | _ => ([], [])) = some (go!"c/c.go", occurrences true) ∧
    occurrences false ≠ occurrences true :=
  ⟨document_c .before, document_c .comment, by decide +kernel⟩

end Verif.LocalitySample
