import Verif.Props.Places
import Verif.Props.ContentSample
/-! # A concrete project meets the hypotheses of C99 -/
namespace Verif.IndexSample
open Verif Spec Index

theorem parsed : ParsedProject project where
  places := by show List.Nodup _; decide +kernel
  specs := by
    intro p hp f hf tok specs doc hd ht
    obtain ⟨_, rfl⟩ := in_project hp
    simp only [pkgP, List.mem_cons, List.not_mem_nil, or_false] at hf
    rcases hf with rfl | rfl
    all_goals simp only [fileA, FileSample.decls, fileB, declsB, List.mem_cons, List.not_mem_nil, or_false, Node.genDecl.injEq, reduceCtorEq] at hd
    all_goals rcases ht with rfl | rfl <;> simp at hd

theorem noNested : ∀ p, (p.path, p) ∈ project → ∀ f ∈ p.files, NoNestedDeclarations f.decls := by
    intro p hp f hf tok specs doc hd ht
    obtain ⟨_, rfl⟩ := in_project hp
    simp only [pkgP, List.mem_cons, List.not_mem_nil, or_false] at hf
    rcases hf with rfl | rfl
    all_goals simp only [fileA, FileSample.decls, fileB, declsB, List.mem_cons, List.not_mem_nil, or_false, Node.genDecl.injEq, reduceCtorEq] at hd
    all_goals rcases ht with rfl | rfl <;> simp at hd

/-- C99: the index of the sample is determined. -/
example (ms : List Message) (h : IndexOf deps opts project all ms) : SameIndex run.messages ms :=
  C99_determined typed namedTypes parsed noNested _ _ run_index h

end Verif.IndexSample

namespace Verif.PlacesSample
open Verif Spec Index IndexSample

/-!
```go
package p
type T struct { A, B int; In struct { C int }; *E }
var x, y = 1, struct{ D int }{2}
func f() interface { M() } { return nil }
```
-/

def typeT : Node := .structT
  [ .field 20 [⟨1, go!"A", 20⟩, ⟨2, go!"B", 22⟩] (.ident ⟨3, go!"int", 24⟩) [] [],
    .field 30 [⟨4, go!"In", 30⟩] (.structT [.field 40 [⟨5, go!"C", 40⟩] (.ident ⟨6, go!"int", 42⟩) [] []]) [] [],
    .field 50 [] (.star (.ident ⟨7, go!"E", 51⟩)) [] [] ]
def specXY : Node := .valueSpec 60 [⟨8, go!"x", 60⟩, ⟨9, go!"y", 62⟩] []
  [.other [], .other [.structT [.field 70 [⟨10, go!"D", 70⟩] (.ident ⟨11, go!"int", 72⟩) [] []], .other []]] [] []
def decls : List Node :=
  [ .genDecl .typ [.typeSpec ⟨12, go!"T", 15⟩ [] typeT []] [],
    .genDecl .var [specXY] [],
    .funcDecl [] ⟨13, go!"f", 80⟩ (.funcT [] [] [.field 84 [] (.ifaceT [.field 90 [⟨14, go!"M", 90⟩] (.funcT [] [] []) [] []]) [] []])
      [.block []] 76 99 [] ]
def file : Node := .file ⟨15, go!"p", 8⟩ decls

theorem places_file : (placesList [file]).Nodup := by decide +kernel

theorem specs_file (name : Ident) (ds : List Node) (h : .file name ds ∈ [file]) : ValueSpecs ds := by
  simp only [file, List.mem_singleton, Node.file.injEq] at h
  obtain ⟨rfl, rfl⟩ := h
  intro tok specs doc hd ht s hs
  simp only [decls, List.mem_cons, List.not_mem_nil, or_false, Node.genDecl.injEq, reduceCtorEq] at hd
  rcases hd with ⟨rfl, _⟩ | ⟨rfl, rfl, rfl⟩
  · simp at ht
  · simp only [List.mem_singleton] at hs
    exact ⟨_, _, _, _, _, _, hs⟩

theorem ok_file : FilesOk [file] := by
  intro name ds h d hd
  simp only [file, List.mem_singleton, Node.file.injEq] at h
  obtain ⟨rfl, rfl⟩ := h
  simp only [decls, List.mem_cons, List.not_mem_nil, or_false] at hd
  rcases hd with rfl | rfl | rfl
  · exact ⟨by simp, by simp⟩
  · exact ⟨by simp, fun _ => parsedTree _ (by decide +kernel)⟩
  · exact ⟨⟨_, .func⟩, .funcT (by simp only [List.mem_singleton, forall_eq]; exact .field _ _ _ _ (.ifaceT _))⟩

/-- C99: the field of the anonymous type is recorded under its own path. -/
example : ∃ t, visitPackageSyntax envP [file] [] = some t ∧
    t.getSymbol 90 = some (envP.fromDescriptors [⟨go!"m/p", .nspace⟩, ⟨go!"func", .metadesc⟩, ⟨go!"f", .metadesc⟩, ⟨go!"M", .method⟩]) := by
  obtain ⟨t, ht, h⟩ := C99_own_symbol envP [file] places_file specs_file ok_file
  refine ⟨t, ht, h ⟨14, go!"M", 90⟩ _ 90 ⟨_, _, List.mem_singleton.2 rfl, .func (d := decls[2]) (by simp [decls]) ?_⟩⟩
  exact .result .func (.result (List.mem_singleton.2 rfl) (.field (.iface (List.mem_singleton.2 rfl) (List.mem_singleton.2 rfl))))

end Verif.PlacesSample
