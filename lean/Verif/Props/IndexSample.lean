import Verif.Props.Determinism
import Verif.Props.RelativePath
import Verif.Props.FileVisitorSample
import Verif.Props.ImplementationsSample
import Verif.Props.Signatures
import Verif.Props.AnonKey
import Verif.Model.Program
/-!
# A concrete project meets the hypotheses of C49-C51, C58, C69, C73, C74

Package `m/p` has two files; package `fmt` is a dependency known from export data, with a type `R` that has a method `M`.

```go
// a.go                                      // b.go
package p                                    package p
import "fmt"                                 type S struct{}
// Deprecated: use G.                        func (S) M() {}
func F() { x := 1; fmt.Println(x); F() }     type I interface{ M() }
                                             func G(v any) { switch x := v.(type) { case int: use(x); case string: }; F() }
```
-/
namespace Verif.IndexSample
open Verif Spec Index

def modP : ModIdent := ⟨go!"m", go!"v1"⟩
def objG : Obj := .plain ⟨10, .func (some none), go!"G", some go!"m/p", 160⟩
def objS : Obj := .plain ⟨11, .typeName (.named (.struct [])), go!"S", some go!"m/p", 115⟩
def objI : Obj := .plain ⟨12, .typeName (.named .iface), go!"I", some go!"m/p", 140⟩
def objV : Obj := .plain ⟨13, .var false, go!"v", some go!"m/p", 162⟩
def objX1 : Obj := .plain ⟨14, .var false, go!"x", some go!"m/p", 170⟩
def objX2 : Obj := .plain ⟨15, .var false, go!"x", some go!"m/p", 170⟩
def objAny : Obj := .plain ⟨16, .typeName (.alias .iface), go!"any", none, 0⟩
def mS : Impl.Method := ImplSample.meth 17 go!"M" go!"m/p" go!"S" 125 false true
def mI : Impl.Method := ImplSample.meth 18 go!"M" go!"m/p" go!"I" 155 true true
def mR : Impl.Method := ImplSample.meth 19 go!"M" go!"fmt" go!"R" 901 false true
def objR : Obj := .plain ⟨20, .typeName (.named (.struct [])), go!"R", some go!"fmt", 902⟩

def defList : List (Nat × Obj) :=
  [(1, FileSample.objF), (2, FileSample.objX), (11, objS), (13, mS.obj), (14, objI), (15, mI.obj), (16, objG), (17, objV)]
def useList : List (Nat × Obj) :=
  [(3, FileSample.objFmt), (4, FileSample.objPrintln), (5, FileSample.objX), (6, FileSample.objF), (12, objS), (18, objAny), (20, objV),
   (21, objX1), (22, FileSample.objF)]

/-- What go/types knows about the objects: functions without parameters, everything else has type `int`. -/
def viewP (o : Obj) : Sign.View :=
  ⟨some ⟨1, go!"m/p", go!"p"⟩, true, o.self.name, match o.self.cls with
    | .pkgName p => .pkgName (some p)
    | .typeName _ => .typeName (.defined [] (.ref none go!"int" .nil))
    | .const => .const (.ref none go!"int" .nil) go!"1"
    | .var f => .var f (.ref none go!"int" .nil)
    | .func _ => .func none [] (.mk .nil false .nil)
    | .label => .label
    | .builtin => .builtin
    | .nil => .nil⟩

def envP : PkgEnv :=
  { pkgPath := go!"m/p", module := modP, defs := fun u => defList.lookup u, uses := fun u => useList.lookup u, anonKey := fun _ => []
    signature := fun o => Sign.typeStringForObject (fun _ => none) AnonSample.quote AnonSample.unquote (viewP o)
    position := fun p => ⟨1, p % 1000 + 1⟩ }

def declsB : List Node :=
  [ .genDecl .typ [.typeSpec ⟨11, go!"S", 115⟩ [] (.structT []) []] [],
    .funcDecl [.field 122 [] (.ident ⟨12, go!"S", 122⟩) [] []] ⟨13, go!"M", 125⟩ (.funcT [] [] []) [.block []] 118 130 [],
    .genDecl .typ [.typeSpec ⟨14, go!"I", 140⟩ [] (.ifaceT [.field 155 [⟨15, go!"M", 155⟩] (.funcT [] [] []) [] []]) []] [],
    .funcDecl [] ⟨16, go!"G", 160⟩ (.funcT [] [.field 162 [⟨17, go!"v", 162⟩] (.ident ⟨18, go!"any", 164⟩) [] []] [])
      [.block [.other [.ident ⟨19, go!"x", 170⟩, .ident ⟨20, go!"v", 174⟩, .other [.ident ⟨21, go!"x", 180⟩], .other [.ident ⟨22, go!"F", 186⟩]]]] 158 190 [] ]

def fileA : SourceFile := ⟨go!"/w/m/p/a.go", go!"/w/m/p/a.go", 0, ⟨0, go!"p", 8⟩, FileSample.decls, none⟩
def fileB : SourceFile := ⟨go!"/w/m/p/b.go", go!"/w/m/p/b.go", 1, ⟨50, go!"p", 108⟩, declsB, some go!"Package p is a sample."⟩

def nI : Impl.NamedT := ⟨1, true, [mI]⟩
def nS : Impl.NamedT := ⟨2, false, [mS]⟩
def nR : Impl.NamedT := ⟨3, false, [mR]⟩

def pkgP : Package :=
  { env := envP, name := go!"p", files := [fileA, fileB], implicits := [objX1, objX2]
    pkgNameOf := fun u => if u = 100 then some go!"fmt" else none, imports := fun p => if p = go!"fmt" then some go!"fmt" else none
    defs := some [some ⟨objI.self, true, some nI⟩, none, some ⟨objS.self, true, some nS⟩], scope := some [] }
def pkgFmt : Package :=
  { env := ⟨go!"fmt", ⟨go!"std", go!"go1"⟩, fun _ => none, fun _ => none, fun _ => [], fun _ => [], fun _ => ⟨1, 1⟩⟩, name := go!"fmt"
    files := [], implicits := [], pkgNameOf := fun _ => none, imports := fun _ => none, defs := none
    scope := some [some ⟨objR.self, true, some nR⟩] }

def project : GoMap Package := [(go!"m/p", pkgP)]
/-- The options of the whole program. -/
def options : Cmd.IndexOpts := ⟨go!"/w/m", go!"v1", go!"m", false, go!"go1", false, false, false, [], []⟩
def pkgBuiltin : Package := Program.builtinPackage options
def all : GoMap Package := [(go!"fmt", pkgFmt), (go!"m/p", pkgP), (go!"builtin", pkgBuiltin)]

def deps : Deps := ⟨fun _ => [], fun o => Sign.objectString AnonSample.quote (fun _ => []) (viewP o), fun p => some (p / 100), ImplSample.E, id, go!"0.1"⟩
def opts : Opts := ⟨go!"/w/m", go!"v1", false, []⟩

def objs : List Obj := [FileSample.objF, FileSample.objX, FileSample.objPrintln, objG, objS, objI, objV, objX1, objAny, mS.obj, mI.obj,
  mR.obj, objR]

def ord : MapOrders := ⟨id, id, id, fun _ l => l, fun _ l => l, fun _ l => l, fun _ l => l, ImplSample.orders⟩
def ord' : MapOrders := ⟨List.reverse, List.reverse, List.reverse, fun _ l => l.reverse, fun _ l => l.reverse, fun _ l => l.reverse,
  fun _ l => l.reverse, ImplSample.orders'⟩
def writer : Writer := fun _ _ => none

theorem ord_ok : ValidMapOrders ord :=
  ⟨fun _ => .refl _, fun _ => .refl _, fun _ => .refl _, fun _ _ => .refl _, fun _ _ => .refl _, fun _ _ => .refl _, fun _ _ => .refl _,
    ImplSample.orders_ok⟩
theorem ord'_ok : ValidMapOrders ord' :=
  ⟨List.reverse_perm, List.reverse_perm, List.reverse_perm, fun _ => List.reverse_perm, fun _ => List.reverse_perm,
    fun _ => List.reverse_perm, fun _ => List.reverse_perm, ImplSample.orders'_ok⟩

theorem mem_of_lookup {l : List (Nat × Obj)} {u : Nat} {o : Obj} (h : l.lookup u = some o) : (u, o) ∈ l := by
  obtain ⟨a, b, rfl, _⟩ := List.lookup_eq_some_iff.1 h
  simp

macro "free" : tactic => `(tactic|
  repeat' first
    | trivial
    | apply And.intro
    | (refine FuncFree.mk (by simp) ?_; simp only [children, FileSample.body, List.map_cons, List.map_nil, List.nil_append, List.append_nil,
        List.forall_mem_cons, List.cons_append, List.not_mem_nil, false_implies, implies_true, and_true]))

theorem parsedA : ParsedFile (sourceEnv deps pkgP) (fun q => (all.get q).isSome) fileA.decls where
  top_level := FileSample.parsed.top_level
  distinct := by decide +kernel

theorem parsedB : ParsedFile (sourceEnv deps pkgP) (fun q => (all.get q).isSome) fileB.decls where
  top_level := by
    intro d hd
    simp only [fileB, declsB, List.mem_cons, List.not_mem_nil, or_false] at hd
    rcases hd with rfl | rfl | rfl | rfl
    · left; free
    · right
      refine ⟨_, _, _, _, _, _, _, rfl, ?_, ?_, ?_⟩
      · simp only [List.forall_mem_cons, List.not_mem_nil, false_implies, implies_true, and_true]; free
      · free
      · simp only [List.forall_mem_cons, List.not_mem_nil, false_implies, implies_true, and_true]; free
    · left; free
    · right
      refine ⟨_, _, _, _, _, _, _, rfl, by simp, ?_, ?_⟩
      · free
      · simp only [List.forall_mem_cons, List.not_mem_nil, false_implies, implies_true, and_true]; free
  distinct := by decide +kernel

theorem declarationsA : FilesOk [fileA.node] := by
  intro n ds h d hd
  simp only [List.mem_singleton, fileA, SourceFile.node, Node.file.injEq] at h
  obtain ⟨rfl, rfl⟩ := h
  simp only [FileSample.decls, List.mem_cons, List.not_mem_nil, or_false] at hd
  rcases hd with rfl | rfl
  · exact ⟨by simp, by simp⟩
  · exact ⟨⟨_, .func⟩, .funcT (by simp)⟩

theorem declarationsB : FilesOk [fileB.node] := by
  intro n ds h d hd
  simp only [List.mem_singleton, fileB, SourceFile.node, Node.file.injEq] at h
  obtain ⟨rfl, rfl⟩ := h
  simp only [declsB, List.mem_cons, List.not_mem_nil, or_false] at hd
  rcases hd with rfl | rfl | rfl | rfl
  · exact ⟨by simp, by simp⟩
  · exact ⟨⟨_, .method (.ident _)⟩, .funcT (by simp)⟩
  · exact ⟨by simp, by simp⟩
  · exact ⟨⟨_, .func⟩, .funcT (by simp)⟩

/-- The identifiers of the two files. -/
def identsA : List Ident := identsOf (fileEventsOf deps all pkgP fileA)
def identsB : List Ident := identsOf (fileEventsOf deps all pkgP fileB)

example : identsA.map (·.name) = [go!"F", go!"x", go!"Println", go!"x", go!"F"] := by decide +kernel
example : identsB.map (·.name) = [go!"S", go!"S", go!"M", go!"I", go!"M", go!"G", go!"v", go!"any", go!"x", go!"v", go!"x", go!"F"] := by decide +kernel

theorem lookups {l : List Ident} {f : Nat → Option Obj} {P : Ident → Obj → Bool} (h : (l.all fun i => (f i.uid).all (P i)) = true) :
    ∀ i ∈ l, ∀ r, f i.uid = some r → P i r = true := by
  intro i hi r hr
  have := List.all_eq_true.1 h i hi
  rw [hr] at this
  exact this

theorem imports_ok : ∀ (a : Nat) (imported : Str), (pkgP.env.position a).col + 1 + imported.length < 2 ^ 31 ∨ ∀ q, pkgP.imports q ≠ some imported := by
  intro p imported
  have := Nat.mod_lt p (show 1000 > 0 by decide)
  by_cases h : imported = go!"fmt"
  · left; subst h; simp only [pkgP, envP]; simp; omega
  · right; intro q; simp only [pkgP]; split
    · simp; exact fun he => h he.symm
    · simp

theorem notPkg {o : Obj} (h : (match o.self.cls with | .pkgName _ => false | _ => true) = true) (q : Str) : o.self.cls ≠ .pkgName q := by
  intro e; rw [e] at h; simp at h

theorem named_imports {es : List Event} (h : (es.all fun e => match e with | .imp _ (some _) _ => false | _ => true) = true)
    (uid : Nat) (n : Ident) (a : Nat) (hm : Event.imp uid (some n) a ∈ es) : False := by
  have := List.all_eq_true.1 h _ hm
  simp at this

theorem sourceA : TypedSource deps (fun q => (all.get q).isSome) objs pkgP fileA where
  parsed := parsedA
  declarations := declarationsA
  looked_up := fun i hi r hr => of_decide_eq_true (lookups (P := fun _ r => decide (r ∈ objs)) (by decide +kernel) i hi r hr)
  imports := imports_ok
  import_names := fun uid n a h => (named_imports (by decide +kernel) uid n a h).elim
  apart := by decide +kernel
  declared_at := fun i hi r hr => of_decide_eq_true (lookups (P := fun i d => decide (d.self.pos = i.pos)) (by decide +kernel) i hi r hr)
  no_package_value := fun i hi r hr => notPkg (lookups (P := fun _ o => match o.self.cls with | .pkgName _ => false | _ => true)
    (by decide +kernel) i hi r hr)

theorem sourceB : TypedSource deps (fun q => (all.get q).isSome) objs pkgP fileB where
  parsed := parsedB
  declarations := declarationsB
  looked_up := fun i hi r hr => of_decide_eq_true (lookups (P := fun _ r => decide (r ∈ objs)) (by decide +kernel) i hi r hr)
  imports := imports_ok
  import_names := fun uid n a h => (named_imports (by decide +kernel) uid n a h).elim
  apart := by decide +kernel
  declared_at := fun i hi r hr => of_decide_eq_true (lookups (P := fun i d => decide (d.self.pos = i.pos)) (by decide +kernel) i hi r hr)
  no_package_value := fun i hi r hr => notPkg (lookups (P := fun _ o => match o.self.cls with | .pkgName _ => false | _ => true)
    (by decide +kernel) i hi r hr)

theorem in_project {k : Str} {p : Package} (h : (k, p) ∈ project) : k = go!"m/p" ∧ p = pkgP := by
  simpa [project] using h

theorem in_all {k : Str} {p : Package} (h : (k, p) ∈ all) :
    (k = go!"fmt" ∧ p = pkgFmt) ∨ (k = go!"m/p" ∧ p = pkgP) ∨ k = go!"builtin" ∧ p = pkgBuiltin := by
  simpa [all] using h

/-- The types of the two packages. -/
theorem types_of {k : Str} {p : Package} (h : (k, p) ∈ all) {t : Impl.TypeDef} {ds : List (Option Impl.TypeDef)}
    (hds : p.defs = some ds ∨ p.scope = some ds) (ht : some t ∈ ds) :
    t = ⟨objI.self, true, some nI⟩ ∨ t = ⟨objS.self, true, some nS⟩ ∨ t = ⟨objR.self, true, some nR⟩ := by
  rcases in_all h with ⟨_, rfl⟩ | ⟨_, rfl⟩ | ⟨_, rfl⟩
  · rcases hds with hds | hds
    · simp [pkgFmt] at hds
    · simp only [pkgFmt, Option.some.injEq] at hds
      subst hds
      simp only [List.mem_cons, List.not_mem_nil, or_false, Option.some.injEq] at ht
      exact .inr (.inr ht)
  · rcases hds with hds | hds
    · simp only [pkgP, Option.some.injEq] at hds
      subst hds
      simp only [List.mem_cons, List.not_mem_nil, or_false, Option.some.injEq, reduceCtorEq, false_or] at ht
      rcases ht with ht | ht
      · exact .inl ht
      · exact .inr (.inl ht)
    · simp only [pkgP, Option.some.injEq] at hds
      subst hds
      simp at ht
  · rcases hds with hds | hds <;> simp [pkgBuiltin, Program.builtinPackage] at hds

theorem wellFormed : ∀ o ∈ objs, WellFormedObj o := by
  have h1 : ∀ o ∈ objs, '.' ∉ o.self.name := by decide +kernel
  have h2 : ∀ o ∈ objs, o.self.pkg ≠ some [] ∧ o.self.pkg ≠ some go!"_" := by decide +kernel
  have h3 : ∀ o ∈ objs, o.self.pkg = none → o = objAny := by decide +kernel
  intro o ho
  refine ⟨h1 o ho, fun p hp => ⟨fun e => (h2 o ho).1 (by rw [hp, e]), fun e => (h2 o ho).2 (by rw [hp, e])⟩, ?_, ?_⟩
  · intro h; rw [h3 o ho h]; exact .inl ⟨_, rfl⟩
  · intro h _ _; rw [h3 o ho h]; decide

theorem packageP : TypedPackage deps (fun q => (all.get q).isSome) objs pkgP where
  files := by
    intro f hf
    simp only [pkgP, List.mem_cons, List.not_mem_nil, or_false] at hf
    rcases hf with rfl | rfl
    · exact sourceA
    · exact sourceB
  positions := by
    intro a
    have := Nat.mod_lt a (show 1000 > 0 by decide)
    refine ⟨Nat.le_refl _, ?_, ?_, ?_⟩ <;> simp only [pkgP, envP] <;> omega
  unquoted := by
    intro o ho
    have hall : ∀ e ∈ defList ++ useList ++ [(0, objX1), (0, objX2)], e.2.self.name.head? ≠ some '"' := by decide +kernel
    rcases ho with ⟨u, h | h⟩ | h
    · exact hall _ (List.mem_append_left _ (List.mem_append_left _ (mem_of_lookup h)))
    · exact hall _ (List.mem_append_left _ (List.mem_append_right _ (mem_of_lookup h)))
    · refine hall (0, o) (List.mem_append_right _ ?_)
      simpa [pkgP] using h
  clauses := by
    intro f hf f' hf' i hi
    have hA : ∀ i ∈ identsA, ∀ q ∈ [8, 108], i.pos ≠ q := by decide +kernel
    have hB : ∀ i ∈ identsB, ∀ q ∈ [8, 108], i.pos ≠ q := by decide +kernel
    have hq : f'.name.pos ∈ [8, 108] := by
      simp only [pkgP, List.mem_cons, List.not_mem_nil, or_false] at hf'
      rcases hf' with rfl | rfl <;> decide
    simp only [pkgP, List.mem_cons, List.not_mem_nil, or_false] at hf
    rcases hf with rfl | rfl
    · exact hA i hi _ hq
    · exact hB i hi _ hq
  clause_names := by
    intro f hf
    simp only [pkgP, List.mem_cons, List.not_mem_nil, or_false] at hf
    rcases hf with rfl | rfl <;> decide
  fileSet := by
    intro f hf
    simp only [pkgP, List.mem_cons, List.not_mem_nil, or_false] at hf
    rcases hf with rfl | rfl
    · exact ⟨rfl, by decide +kernel⟩
    · exact ⟨rfl, by decide +kernel⟩
  implicits := by
    intro o ho o' ho' _
    simp only [pkgP, List.mem_cons, List.not_mem_nil, or_false] at ho ho'
    rcases ho with rfl | rfl <;> rcases ho' with rfl | rfl <;> decide

theorem types_ok {k : Str} {p : Package} (h : (k, p) ∈ all) : TypedTypes objs p where
  asked := by
    intro t ⟨ds, hds, ht⟩ n hn
    rcases types_of h hds ht with rfl | rfl | rfl <;> simp only [Option.some.injEq] at hn <;> subst hn
    all_goals
      refine ⟨?_, by decide +kernel⟩
      intro m hm
      simp only [nI, nS, nR, List.mem_cons, List.not_mem_nil, or_false] at hm
      subst hm
      exact ⟨by simp [objs], _, rfl⟩
  scope := by
    intro ds hds t ht
    rcases in_all h with ⟨_, rfl⟩ | ⟨_, rfl⟩ | ⟨_, rfl⟩
    · simp only [pkgFmt, Option.some.injEq] at hds
      subst hds
      simp only [List.mem_cons, List.not_mem_nil, or_false, Option.some.injEq] at ht
      subst ht
      exact ⟨rfl, by decide +kernel⟩
    · simp only [pkgP, Option.some.injEq] at hds
      subst hds
      simp at ht
    · simp [pkgBuiltin, Program.builtinPackage] at hds

theorem typed : TypedProject deps project all objs where
  project_keyed := ⟨by decide, fun k p h => by obtain ⟨rfl, rfl⟩ := in_project h; rfl⟩
  all_keyed := ⟨by decide, fun k p h => by rcases in_all h with ⟨rfl, rfl⟩ | ⟨rfl, rfl⟩ | ⟨rfl, rfl⟩ <;> rfl⟩
  sub := fun k p h => by obtain ⟨rfl, rfl⟩ := in_project h; simp [all]
  packages := fun k p h => by obtain ⟨rfl, rfl⟩ := in_project h; exact packageP
  types := fun k p h => types_ok h
  apart := by decide +kernel
  files_apart := by decide +kernel
  coherent := by unfold CoherentObjs; decide +kernel
  wellFormed := wellFormed

theorem extractor_ok : ExtractorOk deps all := by
  refine ⟨sampleLex_ok, ?_⟩
  intro k p h t ⟨ds, hds, ht⟩ n hn m hm
  rcases types_of h hds ht with rfl | rfl | rfl <;> simp only [Option.some.injEq] at hn <;> subst hn
  all_goals
    simp only [nI, nS, nR, List.mem_cons, List.not_mem_nil, or_false] at hm
    subst hm
    simp [mI, mS, mR, ImplSample.meth, ImplSample.fnSig, Fp.Spec.Valid, Fp.Spec.ValidEach]

theorem distinctTypes : DistinctTypes deps opts ord project all := by
  intro docs g h b
  have e : (indexVisitPackages opts ord project all).map (fun s =>
      (((describedList deps.scopes s.2 true (side ((ord.extractProject (project.map (·.2))).map (Package.impl ord))
        ((ord.extractAll (all.map (·.2))).map (Package.impl ord)) true)).map (·.2.1.sym)).Nodup : Bool) &&
      (((describedList deps.scopes s.2 false (side ((ord.extractProject (project.map (·.2))).map (Package.impl ord))
        ((ord.extractAll (all.map (·.2))).map (Package.impl ord)) false)).map (·.2.1.sym)).Nodup : Bool)) = some true := by decide +kernel
  rw [h] at e
  simp only [Option.map_some, Option.some.injEq, Bool.and_eq_true, decide_eq_true_eq] at e
  cases b
  · exact symbolsDistinct_of e.2
  · exact symbolsDistinct_of e.1

/-- The run. -/
def run : Run := index deps opts ord writer (.ok (project, all))

/-- A summary of a message: path and number of occurrences, symbol and relationships of the descriptions. -/
def summary : Message → Str × Nat × List (Str × List Str)
  | .metadata m => (m.projectRoot, 0, [])
  | .document p os ss => (p, os.length, ss.map (fun s => (s.1.symbol, s.2)))
  | .external s rs => (s, 0, [(s, rs)])

theorem messages : run.messages.map summary =
    [ (go!"file:///w/m", 0, []),
      (go!"p/a.go", 8, [(go!"scip-go gomod m v1 `m/p`/", []), (go!"scip-go gomod m v1 `m/p`/F().", []), (go!"local 0", [])]),
      (go!"p/b.go", 12, [(go!"scip-go gomod m v1 `m/p`/G().", []),
        (go!"scip-go gomod m v1 `m/p`/S#M().", [go!"scip-go gomod m v1 `m/p`/I#M."]),
        (go!"scip-go gomod m v1 `m/p`/I#M.", []), (go!"scip-go gomod m v1 `m/p`/I#", []),
        (go!"scip-go gomod m v1 `m/p`/S#", [go!"scip-go gomod m v1 `m/p`/I#"]), (go!"local 0", []), (go!"local 1", [])]),
      (go!"scip-go gomod std go1 fmt/R#", 0, [(go!"scip-go gomod std go1 fmt/R#", [go!"scip-go gomod m v1 `m/p`/I#"])]) ] := by
  decide +kernel

example : run.outcome = .ok := (C74_never_crashes deps opts ord writer project all objs typed extractor_ok ord_ok).2 (fun _ _ => rfl)
example : (index deps opts ord' writer (.ok (project, all))).outcome = .ok :=
  (C74_never_crashes deps opts ord' writer project all objs typed extractor_ok ord'_ok).2 (fun _ _ => rfl)

/-- The reversed orders give another output, but (C69) the same documents. -/
example : (index deps opts ord' writer (.ok (project, all))).messages ≠ run.messages := by decide +kernel
example : (index deps opts ord' writer (.ok (project, all))).messages.length = run.messages.length :=
  ((C69_same_documents deps opts ord' ord writer writer project all objs typed ord'_ok ord_ok (by
    intro docs g h b
    have e : (indexVisitPackages opts ord' project all).map (fun s =>
        (((describedList deps.scopes s.2 true (side ((ord'.extractProject (project.map (·.2))).map (Package.impl ord'))
          ((ord'.extractAll (all.map (·.2))).map (Package.impl ord')) true)).map (·.2.1.sym)).Nodup : Bool) &&
        (((describedList deps.scopes s.2 false (side ((ord'.extractProject (project.map (·.2))).map (Package.impl ord'))
          ((ord'.extractAll (all.map (·.2))).map (Package.impl ord')) false)).map (·.2.1.sym)).Nodup : Bool)) = some true := by decide +kernel
    rw [h] at e
    simp only [Option.map_some, Option.some.injEq, Bool.and_eq_true, decide_eq_true_eq] at e
    cases b
    · exact symbolsDistinct_of e.2
    · exact symbolsDistinct_of e.1) _ _ rfl rfl).2.2
    ((C74_never_crashes deps opts ord' writer project all objs typed extractor_ok ord'_ok).2 (fun _ _ => rfl))
    ((C74_never_crashes deps opts ord writer project all objs typed extractor_ok ord_ok).2 (fun _ _ => rfl))).1

/-- A writer that fails at the third message: C50. -/
def failing : Writer := fun done _ => if done.length = 2 then some go!"disk full" else none
example : (index deps opts ord failing (.ok (project, all))).outcome = .failed go!"disk full" ∧
    (index deps opts ord failing (.ok (project, all))).messages = run.messages.take 3 := by
  decide +kernel

end Verif.IndexSample
