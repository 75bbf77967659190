import Verif.Props.KeptDeclaration
import Verif.Props.LocalitySample
/-! # Concrete cases of C110; and its exception is needed -/
namespace Verif.KeptSample
open Verif Spec Index

/-! ## The function `G` of the sample of C96 is kept while the body of `F` is edited -/

def same : Renaming := ⟨id, id, id, id, fun _ _ h => h, fun _ _ h => h, fun _ _ h => h, fun _ _ h => h⟩

section
open LocalitySample IndexSample

abbrev declG : Node := .funcDecl [] ⟨1, go!"G", 40⟩ (.funcT [] [.field 45 [⟨2, go!"x", 45⟩] (.ident ⟨3, go!"int", 50⟩) [] []] [])
      [.block [.other [.ident ⟨5, go!"F", 60⟩], .other [.ident ⟨6, go!"x", 70⟩]]] 35 90 []

theorem kept : KeptDeclaration same (pkg .before) (pkg .body) declG where
  before := ⟨fileC, by simp [pkg], by simp [fileC, declsC]⟩
  after := ⟨fileC, by simp [pkg], by simp [fileC, declsC, declG, renNode, renNodes, renIdent, same]⟩
  path := rfl
  module := rfl
  literals := fun _ _ => rfl

theorem named : NamedBy1 (pkg .before).env declG ⟨1, go!"G", 40⟩ [⟨go!"m/c", .nspace⟩, ⟨go!"G", .method⟩] :=
  .func ⟨_, _, _, _, _, _, _, List.mem_singleton.2 rfl, List.mem_singleton.2 rfl⟩ (by decide) (by decide)

theorem top {v : Version} {d : Node} (h : TopLevel ((pkg v).files.map SourceFile.node) d) : d ∈ declsC ++ declsD v := by
  obtain ⟨name, decls, hf, hd⟩ := h
  simp only [pkg, SourceFile.node, fileC, fileD, List.map_cons, List.map_nil, List.mem_cons, List.not_mem_nil, or_false, Node.file.injEq] at hf
  rcases hf with ⟨_, rfl⟩ | ⟨_, rfl⟩
  · exact List.mem_append_left _ hd
  · exact List.mem_append_right _ hd

theorem isFunc {v : Version} {d : Node} (h : TopLevel ((pkg v).files.map SourceFile.node) d) :
    ∃ n typ body a b doc, d = .funcDecl [] n typ body a b doc ∧ (n = ⟨1, go!"G", 40⟩ ∨ n = ⟨base v + 1, go!"F", base v + 40⟩) := by
  have := top h
  simp only [declsC, declsD, List.cons_append, List.nil_append, List.mem_cons, List.not_mem_nil, or_false] at this
  rcases this with rfl | rfl
  · exact ⟨_, _, _, _, _, _, rfl, .inl rfl⟩
  · exact ⟨_, _, _, _, _, _, rfl, .inr rfl⟩

theorem noType {v : Version} {n : Ident} {typ : Node} : ¬ DeclaresType ((pkg v).files.map SourceFile.node) n typ := by
  rintro ⟨tok, specs, doc, tps, own, h, _⟩
  obtain ⟨_, _, _, _, _, _, e, _⟩ := isFunc h
  cases e

theorem noValue {v : Version} {n : Ident} : ¬ DeclaresValue ((pkg v).files.map SourceFile.node) n := by
  rintro ⟨tok, specs, doc, pos, names, typ, vs, d, c, h, _⟩
  obtain ⟨_, _, _, _, _, _, e, _⟩ := isFunc h
  cases e

theorem names (v : Version) : GoNames ((pkg v).files.map SourceFile.node) where
  package := by
    have key : ∀ n, PackageName ((pkg v).files.map SourceFile.node) n → n = ⟨1, go!"G", 40⟩ ∨ n = ⟨base v + 1, go!"F", base v + 40⟩ := by
      rintro n (⟨typ, h⟩ | h | ⟨typ, body, a, b, d, h⟩)
      · exact absurd h noType
      · exact absurd h noValue
      · obtain ⟨_, _, _, _, _, _, e, h⟩ := isFunc h
        cases e
        exact h
    intro i j hi hj e _ _
    rcases key i hi with rfl | rfl <;> rcases key j hj with rfl | rfl
    · rfl
    · simp at e
    · simp at e
    · rfl
  methods base i j hi hj := by
    obtain ⟨_, _, _, _, _, _, _, _, _, _, _, h, _⟩ := hi
    obtain ⟨_, _, _, _, _, _, e, _⟩ := isFunc h
    cases e
  members n typ h := absurd h noType
  init n h := by
    rcases h with ⟨typ, h⟩ | h
    · exact absurd h noType
    · exact absurd h noValue

theorem parsedProject (v : Version) : ParsedProject (project v) where
  places := by show List.Nodup _; cases v <;> decide +kernel
  specs := by
    intro p hp f hf tok specs doc hd ht
    obtain ⟨_, rfl⟩ := in_project hp
    obtain ⟨_, _, _, _, _, _, e, _⟩ := isFunc (v := v) (d := .genDecl tok specs doc) ⟨f.name, f.decls, List.mem_map.2 ⟨f, hf, rfl⟩, hd⟩
    cases e

theorem fields (v : Version) : ∀ p, (p.path, p) ∈ project v → fieldOk p.env.module.path ∧ fieldOk p.env.module.version := by
  intro p hp
  obtain ⟨_, rfl⟩ := in_project hp
  cases v <;> exact ⟨by decide, by decide⟩

/-- C110: `G` has one symbol before and after the body of `F`, in the same package, is edited. -/
example :
    let ms := (LocalitySample.run .before).messages
    let ms' := (LocalitySample.run .body).messages
    ∃ (sym : Str) (s s' : SymInfo × List Str) (x x' : Occurrence), sym = (pkg .before).env.fromDescriptors [⟨go!"m/c", .nspace⟩, ⟨go!"G", .method⟩] ∧
      (descriptionsOf ms).filter (fun s => s.1.symbol = sym) = [s] ∧ (descriptionsOf ms').filter (fun s => s.1.symbol = sym) = [s'] ∧
      s'.1.displayName = s.1.displayName ∧ s'.1.kind = s.1.kind ∧
      (((pkg .body).env.defs (same.ident 1)).map (pkg .body).env.signature = ((pkg .before).env.defs 1).map (pkg .before).env.signature →
        s'.1.signature = s.1.signature) ∧
      (∀ docs, DocumentedAs [declG] ⟨1, go!"G", 40⟩ docs → s.1.documentation = docs ∧ s'.1.documentation = docs) ∧
      (definitionsOf ms).filter (fun x => x.symbol = sym) = [x] ∧ (definitionsOf ms').filter (fun x => x.symbol = sym) = [x'] ∧
      x.range = identSpan (sourceEnv deps (pkg .before)) ⟨1, go!"G", 40⟩ ∧
      x'.range = identSpan (sourceEnv deps (pkg .body)) (renIdent same ⟨1, go!"G", 40⟩) :=
  C110_index deps deps opts opts ord ord writer writer (project .before) (project .before) (project .body) (project .body)
    (objs .before) (objs .body) (typed .before) (typed .body) ord_ok ord_ok (namedTypes .before) (namedTypes .body)
    (all_distinct .before) (all_distinct .body) (no_packages .before) (no_packages .body) (parsedProject .before) (parsedProject .body)
    (fields .before) (fields .body) (by decide +kernel) (by decide +kernel) (List.mem_singleton.2 rfl) (List.mem_singleton.2 rfl)
    (names .before) (names .body) kept _ _ named ⟨fileC, by simp [pkg], by decide +kernel⟩ ⟨fileC, by simp [pkg], by decide +kernel⟩
    (by decide +kernel) (by decide +kernel) (by decide +kernel) (by rintro ⟨x, hx, _⟩; simp [pkg] at hx) (by rintro ⟨x, hx, _⟩; simp [pkg] at hx)

/-- Its comment is what documents it (there is none). -/
example : DocumentedAs [declG] ⟨1, go!"G", 40⟩ [] := .func (List.mem_singleton.2 rfl)

end

/-! ## Moved declarations -/

/-- Ten lines further down. -/
def further : Renaming := ⟨(· + 100), (· + 1000), id, id, fun _ _ h => by simpa using h, fun _ _ h => by simpa using h, fun _ _ h => h, fun _ _ h => h⟩

def env : PkgEnv := ⟨go!"p", ⟨go!"m", go!"v1"⟩, fun _ => none, fun _ => none, fun _ => [], fun _ => [], fun q => ⟨q / 10 + 1, q % 10 + 1⟩⟩

def package (ds : List Node) : Package :=
  { env := env, name := go!"p", files := [⟨[], [], 0, ⟨0, go!"p", 8⟩, ds, none⟩], implicits := [], pkgNameOf := fun _ => none, imports := fun _ => none
    defs := none, scope := none }

/-- `var a = struct…`: one name, with a declared type. -/
def one : Node := .genDecl .var [.valueSpec 24 [⟨1, go!"a", 24⟩] [.structT [.field 35 [⟨2, go!"X", 35⟩] (.ident ⟨3, go!"int", 37⟩) [] []]] [] [] []] []

/-- `var a, b struct { X int }`. -/
def two : Node :=
  .genDecl .var [.valueSpec 24 [⟨1, go!"a", 24⟩, ⟨4, go!"b", 27⟩] [.structT [.field 35 [⟨2, go!"X", 35⟩] (.ident ⟨3, go!"int", 37⟩) [] []]] [] [] []] []

/-- Another declaration, written before the one that is kept. -/
def new : Node := .genDecl .var [.valueSpec 24 [⟨7, go!"z", 24⟩] [.ident ⟨8, go!"int", 26⟩] [] [] []] []

theorem kept_moved (d : Node) : KeptDeclaration further (package [d]) (package [new, renNode further d]) d where
  before := ⟨_, List.mem_singleton.2 rfl, List.mem_singleton.2 rfl⟩
  after := ⟨_, List.mem_singleton.2 rfl, by simp⟩
  path := rfl
  module := rfl
  literals := fun _ _ => rfl

/-- C110: the field in the type of `a` keeps its symbol. -/
example : DeclaredAs (package [new, renNode further one]) 135 go!"scip-go gomod m v1 p/a:X." :=
  (C110_same_symbol (kept_moved one) ⟨2, go!"X", 35⟩ [⟨go!"p", .nspace⟩, ⟨go!"a", .metadesc⟩, ⟨go!"X", .term⟩] 35
    (.var (List.mem_singleton.2 rfl) (.inl rfl) (.decl (pre := []) (.inl rfl) rfl
      (.inType (by simp) (List.mem_singleton.2 rfl) (by intro t' h; cases h; exact .struct _)
        (.descend (pre := []) rfl rfl (.named (List.mem_singleton.2 rfl))))))
    (by rintro x hx ⟨h, rest, e⟩
        simp only [List.mem_cons, List.not_mem_nil, or_false] at hx
        rcases hx with rfl | rfl | rfl <;> simp at h e)).2.1

/-- The exception: the symbol of a field of an anonymous type in a spec with several names contains the line and column of the spec, and changes when anything
before it is edited. -/
theorem _root_.Verif.C110_place_in_symbol : KeptDeclaration further (package [two]) (package [new, renNode further two]) two ∧
    (visitPackageSyntax env ((package [two]).files.map SourceFile.node) []).map (·.getSymbol 35) = some (some go!"scip-go gomod m v1 p/inline-3-5:X.") ∧
    (visitPackageSyntax env ((package [new, renNode further two]).files.map SourceFile.node) []).map (·.getSymbol 135) =
      some (some go!"scip-go gomod m v1 p/inline-13-5:X.") :=
  ⟨kept_moved two, by decide +kernel, by decide +kernel⟩

end Verif.KeptSample
