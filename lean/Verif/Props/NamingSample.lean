import Verif.Props.Naming
import Verif.Props.PlacesSample
/-! # A concrete project meets the hypotheses of C100; and what is excluded in C100 has shared symbols -/
namespace Verif.IndexSample
open Verif Spec Index

def filesP : List Node := pkgP.files.map SourceFile.node

theorem top_P {d : Node} (h : TopLevel filesP d) : d ∈ FileSample.decls ++ declsB := by
  obtain ⟨name, decls, hf, hd⟩ := h
  simp only [filesP, pkgP, SourceFile.node, fileA, fileB, List.map_cons, List.map_nil, List.mem_cons, List.not_mem_nil, or_false, Node.file.injEq] at hf
  rcases hf with ⟨_, rfl⟩ | ⟨_, rfl⟩
  · exact List.mem_append_left _ hd
  · exact List.mem_append_right _ hd

theorem type_P {n : Ident} {typ : Node} (h : DeclaresType filesP n typ) :
    (n = ⟨11, go!"S", 115⟩ ∧ typ = .structT []) ∨
    (n = ⟨14, go!"I", 140⟩ ∧ typ = .ifaceT [.field 155 [⟨15, go!"M", 155⟩] (.funcT [] [] []) [] []]) := by
  obtain ⟨tok, specs, doc, tps, d, ht, hs⟩ := h
  have := top_P ht
  simp only [FileSample.decls, declsB, List.cons_append, List.nil_append, List.mem_cons, List.not_mem_nil, or_false, Node.genDecl.injEq, reduceCtorEq,
    false_or] at this
  rcases this with ⟨_, rfl, _⟩ | ⟨_, rfl, _⟩ | ⟨_, rfl, _⟩ <;> simp at hs
  · exact .inl ⟨hs.1, hs.2.2.1⟩
  · exact .inr ⟨hs.1, hs.2.2.1⟩

theorem value_P {n : Ident} : ¬ DeclaresValue filesP n := by
  rintro ⟨tok, specs, doc, pos, names, typ, vs, d, c, ht, htok, hs, _⟩
  have := top_P ht
  simp only [FileSample.decls, declsB, List.cons_append, List.nil_append, List.mem_cons, List.not_mem_nil, or_false, Node.genDecl.injEq, reduceCtorEq,
    false_or] at this
  rcases this with ⟨rfl, _⟩ | ⟨rfl, _⟩ | ⟨rfl, _⟩ <;> simp at htok

theorem func_P {n : Ident} (h : DeclaresFunc filesP n) : n = ⟨1, go!"F", 40⟩ ∨ n = ⟨16, go!"G", 160⟩ := by
  obtain ⟨typ, body, a, b, d, ht⟩ := h
  have := top_P ht
  simp only [FileSample.decls, declsB, List.cons_append, List.nil_append, List.mem_cons, List.not_mem_nil, or_false, Node.funcDecl.injEq, reduceCtorEq,
    false_or, false_and] at this
  rcases this with ⟨_, rfl, _⟩ | ⟨_, rfl, _⟩
  · exact .inl rfl
  · exact .inr rfl

theorem method_P {base : Str} {n : Ident} (h : DeclaresMethod filesP base n) : n = ⟨13, go!"M", 125⟩ := by
  obtain ⟨pos, names, recv, fd, fc, rest, typ, body, a, b, d, ht, _⟩ := h
  have := top_P ht
  simp only [FileSample.decls, declsB, List.cons_append, List.nil_append, List.mem_cons, List.not_mem_nil, or_false, Node.funcDecl.injEq, reduceCtorEq,
    false_or, false_and] at this
  exact this.2.1

theorem member_I {i : Ident} (h : MemberName true (.ifaceT [.field 155 [⟨15, go!"M", 155⟩] (.funcT [] [] []) [] []]) i) : i = ⟨15, go!"M", 155⟩ := by
  cases h with
  | named hf hi =>
    cases hf with
    | iface hf =>
      simp only [List.mem_singleton, Node.field.injEq] at hf
      obtain ⟨_, rfl, _⟩ := hf
      simpa using hi
  | embedded h => simp at h
  | embeddedLit _ hf _ => cases hf with | iface hf => simp at hf

theorem noType_I {b : Bool} {lit : Node} : ¬ MemberType b (.ifaceT [.field 155 [⟨15, go!"M", 155⟩] (.funcT [] [] []) [] []]) lit := by
  intro h
  cases h with
  | named hf _ hr =>
    cases hf with
    | iface hf =>
      simp only [List.mem_singleton, Node.field.injEq] at hf
      obtain ⟨_, _, rfl, _⟩ := hf
      cases hr
  | embeddedLit _ hf _ => cases hf with | iface hf => simp at hf

theorem names_P : GoNames filesP where
  package := by
    have key : ∀ n, PackageName filesP n → n ∈ [(⟨11, go!"S", 115⟩ : Ident), ⟨14, go!"I", 140⟩, ⟨1, go!"F", 40⟩, ⟨16, go!"G", 160⟩] := by
      rintro n (⟨typ, h⟩ | h | h)
      · rcases type_P h with ⟨rfl, _⟩ | ⟨rfl, _⟩ <;> simp
      · exact absurd h value_P
      · rcases func_P h with rfl | rfl <;> simp
    have all : ∀ i ∈ [(⟨11, go!"S", 115⟩ : Ident), ⟨14, go!"I", 140⟩, ⟨1, go!"F", 40⟩, ⟨16, go!"G", 160⟩],
        ∀ j ∈ [(⟨11, go!"S", 115⟩ : Ident), ⟨14, go!"I", 140⟩, ⟨1, go!"F", 40⟩, ⟨16, go!"G", 160⟩], i.name = j.name → i = j := by decide
    exact fun i j hi hj e _ _ => all i (key i hi) j (key j hj) e
  methods base i j hi hj _ _ _ := by rw [method_P hi, method_P hj]
  members n typ h _ := by
    rcases type_P h with ⟨rfl, rfl⟩ | ⟨rfl, rfl⟩
    · refine .mk (fun i j hi => ?_) (fun lit hl => ?_)
      · cases hi with
        | named hf => cases hf with | struct hf => simp at hf
        | embedded _ hf => cases hf with | struct hf => simp at hf
        | embeddedLit h => simp [isIfaceBody] at h
      · cases hl with
        | named hf => cases hf with | struct hf => simp at hf
        | embeddedLit h => simp [isIfaceBody] at h
    · exact .mk (fun i j hi hj _ _ => by rw [member_I hi, member_I hj]) fun lit hl => absurd hl noType_I
  init n h := by
    rcases h with ⟨typ, h⟩ | h
    · rcases type_P h with ⟨rfl, _⟩ | ⟨rfl, _⟩ <;> decide
    · exact absurd h value_P

theorem fields_all : ∀ p, (p.path, p) ∈ all → fieldOk p.env.module.path ∧ fieldOk p.env.module.version := by
  intro p hp
  rcases in_all hp with ⟨_, rfl⟩ | ⟨_, rfl⟩ | ⟨_, rfl⟩ <;> decide +kernel

theorem top_B {d : Node} (h : d ∈ declsB) : TopLevel filesP d := ⟨fileB.name, declsB, by simp [filesP, pkgP, SourceFile.node, fileB], h⟩

theorem type_I : DeclaresType filesP ⟨14, go!"I", 140⟩ (.ifaceT [.field 155 [⟨15, go!"M", 155⟩] (.funcT [] [] []) [] []]) :=
  ⟨.typ, _, [], [], [], top_B (d := declsB[2]) (by simp [declsB]), List.mem_singleton.2 rfl⟩

/-- The method of the interface `I`. -/
theorem denoted_IM : Denoted deps project all pkgP fileB ⟨15, go!"M", 155⟩ [⟨go!"m/p", .nspace⟩, ⟨go!"I", .typ⟩, ⟨go!"M", .term⟩] where
  package := by simp [project, pkgP, envP]
  file := by simp [pkgP]
  names := names_P
  entity := .member type_I (by decide) (.mk (fun a b h => absurd h noType_I) fun lit h => absurd h noType_I)
    (.named (.iface (List.mem_singleton.2 rfl)) (List.mem_singleton.2 rfl)) (by decide)
  read := by decide +kernel

/-- The method `M` of the type `S`. -/
theorem denoted_SM : Denoted deps project all pkgP fileB ⟨13, go!"M", 125⟩ [⟨go!"m/p", .nspace⟩, ⟨go!"S", .typ⟩, ⟨go!"M", .method⟩] where
  package := by simp [project, pkgP, envP]
  file := by simp [pkgP]
  names := names_P
  entity := .method (base := go!"S") ⟨_, _, _, _, _, _, _, _, _, _, _, top_B (d := declsB[1]) (by simp [declsB]), .ident ⟨12, go!"S", 122⟩⟩
    (by decide) (by decide)
  read := by decide +kernel

/-- C100: in the index of the sample, the method of `S` is defined once. -/
example : ∃ x, (definitionsOf run.messages).filter (fun x => x.symbol = envP.fromDescriptors
      [⟨go!"m/p", .nspace⟩, ⟨go!"S", .typ⟩, ⟨go!"M", .method⟩]) = [x] ∧ x.range = identSpan (sourceEnv deps pkgP) ⟨13, go!"M", 125⟩ :=
  (C100_whole_run ord writer typed ord_ok namedTypes all_distinct no_packages parsed fields_all run_ok denoted_SM (by decide +kernel)
    (by rintro ⟨x, hx, e⟩; simp only [pkgP, List.mem_cons, List.not_mem_nil, or_false] at hx; rcases hx with rfl | rfl <;> exact absurd e (by decide))).2.1

/-- C100: the methods of `S` and of `I` have different symbols. -/
example : envP.fromDescriptors [⟨go!"m/p", .nspace⟩, ⟨go!"I", .typ⟩, ⟨go!"M", .term⟩] ≠
    envP.fromDescriptors [⟨go!"m/p", .nspace⟩, ⟨go!"S", .typ⟩, ⟨go!"M", .method⟩] := by
  intro e
  have := (C100_distinct typed.project_keyed parsed (fun p h => fields_all p (typed.sub _ _ h)) pkgP pkgP denoted_IM.package denoted_IM.package names_P
    _ _ _ _ _ denoted_IM.entity (NamedEntity.declares denoted_SM.entity) e).2.1
  simp at this

end Verif.IndexSample

namespace Verif.NamingSample
open Verif Spec Index IndexSample

/-! ## What C100 excludes

```go
package p
func init() {}
func init() {}
type T struct { A struct { X int }; B struct { X int } }
var v = []func(int){ func(a int) {}, func(a int) {} }
```
-/

def env : PkgEnv := { envP with anonKey := fun _ => go!"$anon" }
def lit (k : Nat) : Node := .structT [.field (k + 5) [⟨k, go!"X", k + 5⟩] (.ident ⟨k + 1, go!"int", k + 7⟩) [] []]
def fn (k : Nat) : Node := .other [.funcT [] [.field k [⟨k, go!"a", k⟩] (.ident ⟨k + 1, go!"int", k + 2⟩) [] []] [], .block []]
def initAt (k : Nat) : Node := .funcDecl [] ⟨k, go!"init", k⟩ (.funcT [] [] []) [.block []] (k - 5) (k + 9) []
def decls : List Node :=
  [ initAt 20, initAt 40,
    .genDecl .typ [.typeSpec ⟨100, go!"T", 100⟩ [] (.structT
      [.field 110 [⟨110, go!"A", 110⟩] (lit 120) [] [], .field 130 [⟨130, go!"B", 130⟩] (lit 140) [] []]) []] [],
    .genDecl .var [.valueSpec 200 [⟨200, go!"v", 200⟩] [] [.other [fn 210, fn 230]] [] []] [] ]
def file : Node := .file ⟨1, go!"p", 8⟩ decls

/-- Several `init` functions of a package have one symbol; so have the fields of identical anonymous types side by side, and the parameters of the function
literals in the value of a variable, which are described as if they were package-level entities. -/
theorem _root_.Verif.C100_shared : (placesList [file]).Nodup ∧ (visitPackageSyntax env [file] []).map (fun t =>
      [t.getSymbol 20, t.getSymbol 40, t.getSymbol 125, t.getSymbol 145, t.getSymbol 210, t.getSymbol 230]) =
    some [some go!"scip-go gomod m v1 `m/p`/init().", some go!"scip-go gomod m v1 `m/p`/init().",
      some go!"scip-go gomod m v1 `m/p`/T#$anon#X.", some go!"scip-go gomod m v1 `m/p`/T#$anon#X.",
      some go!"scip-go gomod m v1 `m/p`/v:a.", some go!"scip-go gomod m v1 `m/p`/v:a."] := by decide +kernel

end Verif.NamingSample
