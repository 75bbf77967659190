import Verif.Props.CrossIndexTypes
import Verif.Props.ContentSample
import Verif.Props.ModularitySample
/-! # A concrete pair of runs meets the hypotheses of C111: `m/b` is indexed in the first one, and a dependency of `m/a` in the second one -/
namespace Verif.ModularitySample
open Verif Spec Index IndexSample

def nodesB : List Node := (pkgB true).files.map SourceFile.node

theorem top_B {d : Node} (h : TopLevel nodesB d) : d ∈ declsB := by
  obtain ⟨name, decls, hf, hd⟩ := h
  simp only [nodesB, pkgB, if_true, SourceFile.node, List.map_cons, List.map_nil, List.mem_cons, List.not_mem_nil, or_false, Node.file.injEq] at hf
  obtain ⟨_, rfl⟩ := hf
  exact hd

theorem type_B {n : Ident} {typ : Node} (h : DeclaresType nodesB n typ) :
    n = ⟨11, go!"I", 115⟩ ∧ typ = .ifaceT [.field 125 [⟨12, go!"M", 125⟩] (.funcT [] [] []) [] []] := by
  obtain ⟨tok, specs, doc, tps, d, ht, hs⟩ := h
  have := top_B ht
  simp only [declsB, List.mem_cons, List.not_mem_nil, or_false, Node.genDecl.injEq, reduceCtorEq] at this
  obtain ⟨_, rfl, _⟩ := this
  simp at hs
  exact ⟨hs.1, hs.2.2.1⟩

theorem value_B {n : Ident} : ¬ DeclaresValue nodesB n := by
  rintro ⟨tok, specs, doc, pos, names, typ, vs, d, c, ht, htok, hs, _⟩
  have := top_B ht
  simp only [declsB, List.mem_cons, List.not_mem_nil, or_false, Node.genDecl.injEq, reduceCtorEq] at this
  obtain ⟨rfl, _⟩ := this
  simp at htok

theorem func_B {n : Ident} (h : DeclaresFunc nodesB n) : n = ⟨13, go!"F", 140⟩ := by
  obtain ⟨typ, body, a, b, d, ht⟩ := h
  have := top_B ht
  simp only [declsB, List.mem_cons, List.not_mem_nil, or_false, Node.funcDecl.injEq, reduceCtorEq, false_or] at this
  exact this.2.1

theorem method_B {base : Str} {n : Ident} : ¬ DeclaresMethod nodesB base n := by
  rintro ⟨pos, names, recv, fd, fc, rest, typ, body, a, b, d, ht, _⟩
  have := top_B ht
  simp only [declsB, List.mem_cons, List.not_mem_nil, or_false, Node.funcDecl.injEq, reduceCtorEq, false_or, false_and] at this

theorem member_B {i : Ident} (h : MemberName true (.ifaceT [.field 125 [⟨12, go!"M", 125⟩] (.funcT [] [] []) [] []]) i) : i = ⟨12, go!"M", 125⟩ := by
  cases h with
  | named hf hi =>
    cases hf with
    | iface hf =>
      simp only [List.mem_singleton, Node.field.injEq] at hf
      obtain ⟨_, rfl, _⟩ := hf
      simpa using hi
  | embedded h => simp at h
  | embeddedLit _ hf _ => cases hf with | iface hf => simp at hf

theorem memberType_B {b : Bool} {lit : Node} : ¬ MemberType b (.ifaceT [.field 125 [⟨12, go!"M", 125⟩] (.funcT [] [] []) [] []]) lit := by
  intro h
  cases h with
  | named hf _ hr =>
    cases hf with
    | iface hf =>
      simp only [List.mem_singleton, Node.field.injEq] at hf
      obtain ⟨_, _, rfl, _⟩ := hf
      cases hr
  | embeddedLit _ hf _ => cases hf with | iface hf => simp at hf

theorem names_B : GoNames nodesB where
  package := by
    have key : ∀ n, PackageName nodesB n → n ∈ [(⟨11, go!"I", 115⟩ : Ident), ⟨13, go!"F", 140⟩] := by
      rintro n (⟨typ, h⟩ | h | h)
      · rw [(type_B h).1]; simp
      · exact absurd h value_B
      · rw [func_B h]; simp
    have all : ∀ i ∈ [(⟨11, go!"I", 115⟩ : Ident), ⟨13, go!"F", 140⟩], ∀ j ∈ [(⟨11, go!"I", 115⟩ : Ident), ⟨13, go!"F", 140⟩], i.name = j.name → i = j := by
      decide
    exact fun i j hi hj e _ _ => all i (key i hi) j (key j hj) e
  methods base i j hi _ _ _ _ := absurd hi method_B
  members n typ h _ := by
    obtain ⟨_, rfl⟩ := type_B h
    exact .mk (fun i j hi hj _ _ => by rw [member_B hi, member_B hj]) fun lit hl => absurd hl memberType_B
  init n h := by
    rcases h with ⟨typ, h⟩ | h
    · rw [(type_B h).1]; decide
    · exact absurd h value_B

theorem parsedProject : ParsedProject (project .alone true) where
  places := by show List.Nodup _; decide +kernel
  specs := by
    intro p hp f hf tok specs doc hd ht
    rcases in_project hp with ⟨_, rfl⟩ | ⟨_, _, rfl⟩
    · simp only [pkgA, List.mem_singleton] at hf
      subst hf
      simp only [fileA, declsA, List.mem_cons, List.not_mem_nil, or_false, Node.genDecl.injEq, reduceCtorEq] at hd
      obtain ⟨rfl, _⟩ := hd
      simp at ht
    · simp only [pkgB, if_true, List.mem_singleton] at hf
      subst hf
      simp only [fileB, declsB, List.mem_cons, List.not_mem_nil, or_false, Node.genDecl.injEq, reduceCtorEq] at hd
      obtain ⟨rfl, _⟩ := hd
      simp at ht

theorem module_fields : ∀ p, (p.path, p) ∈ all .alone true → fieldOk p.env.module.path ∧ fieldOk p.env.module.version := by
  intro p hp
  rcases in_all hp with ⟨_, rfl⟩ | ⟨_, rfl⟩ <;> decide +kernel

theorem denoted_F : Denoted deps (project .alone true) (all .alone true) (pkgB true) fileB ⟨13, go!"F", 140⟩ [⟨go!"m/b", .nspace⟩, ⟨go!"F", .method⟩] where
  package := by simp [project, pkgB, envB]
  file := by simp [pkgB]
  names := names_B
  entity := .func (n := ⟨13, go!"F", 140⟩) ⟨_, _, _, _, _, fileB.name, declsB, by simp [pkgB, SourceFile.node, fileB], List.mem_of_getElem (i := 1) (h := by decide) rfl⟩
    (by decide) (by decide)
  read := by decide +kernel

/-- `F`, as its dependents see it, is declared in the file: its symbol is always the same. -/
theorem entity_F : EntityDecl deps.scopes (specScopeName (pkgB true).env.position) (pkgB true).env.pkgPath fileB.decls ⟨13, go!"F", 140⟩
    (entityOf (objF false)) True :=
  .func (List.mem_of_getElem (i := 1) (h := by decide) rfl) rfl rfl

/-- `M`, as its dependents see it: its symbol is never the same. -/
theorem entity_M : EntityDecl deps.scopes (specScopeName (pkgB true).env.position) (pkgB true).env.pkgPath fileB.decls ⟨12, go!"M", 125⟩
    (entityOf (mM false).obj) False :=
  .ifaceMethod (t := ⟨11, go!"I", 115⟩) (List.mem_of_getElem (i := 0) (h := by decide) rfl) (List.mem_singleton.2 rfl) (List.mem_singleton.2 rfl) (List.mem_singleton.2 rfl) rfl rfl

theorem denoted_M : Denoted deps (project .alone true) (all .alone true) (pkgB true) fileB ⟨12, go!"M", 125⟩
    [⟨go!"m/b", .nspace⟩, ⟨go!"I", .typ⟩, ⟨go!"M", .term⟩] where
  package := by simp [project, pkgB, envB]
  file := by simp [pkgB]
  names := names_B
  entity := .member (n := ⟨11, go!"I", 115⟩) (typ := .ifaceT [.field 125 [⟨12, go!"M", 125⟩] (.funcT [] [] []) [] []])
    ⟨.typ, _, [], [], [], ⟨fileB.name, declsB, by simp [pkgB, SourceFile.node, fileB], List.mem_of_getElem (i := 0) (h := by decide) rfl⟩, List.mem_singleton.2 rfl⟩ (by decide)
    (.mk (fun a b ha => absurd ha memberType_B) fun lit hl => absurd hl memberType_B)
    (.named (.iface (List.mem_singleton.2 rfl)) (List.mem_singleton.2 rfl)) (by decide)
  read := by decide +kernel

theorem dependency : DependencyIn (project .full false) (all .full false) (pkgB true) where
  loaded := ⟨pkgB false, by simp [all, pkgB, envB], rfl⟩
  notIndexed q hq := by
    rcases in_project hq with ⟨_, rfl⟩ | ⟨h, _⟩
    · decide +kernel
    · cases h
  safe := by decide +kernel

theorem locals_far {p : Nat} (hp : 800 < p) : ∀ l ∈ localIdents deps (all .full false) (pkgA .full false) (fileA .full), l.pos ≠ p := by
  classical
  intro l hl
  have := (List.mem_filter.1 hl).1
  have h : ∀ l ∈ identsOf (fileEventsOf deps (all .full false) (pkgA .full false) (fileA .full)), l.pos ≤ 800 := by decide +kernel
  have := h l this
  omega

theorem uses_F : UsesEntity deps (all .full false) (pkgA .full false, fileA .full) ⟨6, go!"F", 62⟩ (objF false) go!"m/b" where
  uses := rfl
  pkg := rfl
  name := by decide
  noSwitch := by rintro ⟨x, hx, _⟩; simp [pkgA] at hx
  notLocal := locals_far (by decide)

theorem uses_M : UsesEntity deps (all .full false) (pkgA .full false, fileA .full) ⟨8, go!"M", 72⟩ (mM false).obj go!"m/b" where
  uses := rfl
  pkg := rfl
  name := by decide
  noSwitch := by rintro ⟨x, hx, _⟩; simp [pkgA] at hx
  notLocal := locals_far (by decide)

/-- The reference `b.F` in the index of `m/a` leads to the declaration of `F` in the index of `m/b`. -/
example (path : Str) (occs : List Occurrence) (syms : List (SymInfo × List Str)) (hm : (run .full false).messages[1]? = some (.document path occs syms)) :
    let ms := (run .alone true).messages
    ∃ x ∈ occs, x.isDef = false ∧ x.range = identSpan (sourceEnv deps (pkgA .full false)) ⟨6, go!"F", 62⟩ ∧
      (∃ d, (definitionsOf ms).filter (fun y => y.symbol = x.symbol) = [d] ∧ d.range = identSpan (sourceEnv deps (pkgB true)) ⟨13, go!"F", 140⟩) ∧
      (∃ s, (descriptionsOf ms).filter (fun s => s.1.symbol = x.symbol) = [s] ∧ s.1.displayName = go!"F") ∧
      ∀ rels, .external x.symbol rels ∉ ms :=
  C111_whole_runs opts opts ord ord writer writer (typed .alone true) ord_ok (namedTypes .alone true) (all_distinct .alone true) (no_packages true)
    parsedProject module_fields (by decide +kernel) denoted_F (by decide +kernel) (by rintro ⟨x, hx, _⟩; simp [pkgB] at hx)
    (typed .full false) ord_ok (no_packages false) fileB (by simp [pkgB]) entity_F trivial dependency 0 (pkgA .full false, fileA .full) rfl path occs syms hm
    ⟨6, go!"F", 62⟩ (by decide +kernel) uses_F

/-- And whatever reference of `b.F` has the symbol of `F`, it is one of this package. -/
example (upto : List Ident) (os : List Occurrence)
    (hr : IdentRefs deps (project .full false) (all .full false) (pkgA .full false, fileA .full) upto ⟨6, go!"F", 62⟩ os) (x : Occurrence) (hx : x ∈ os)
    (hsym : x.symbol = (pkgB true).env.fromDescriptors [⟨go!"m/b", .nspace⟩, ⟨go!"F", .method⟩]) :
    DependencyPath deps.scopes go!"m/b" (entityOf (objF false)) [⟨go!"m/b", .nspace⟩, ⟨go!"F", .method⟩] :=
  (C111_leads_right (typed .full false) (module_fields _ (by simp [all, pkgB, envB]))
    (fun q hq => by rcases in_all hq with ⟨_, rfl⟩ | ⟨_, rfl⟩ <;> decide +kernel) denoted_F (pkgA .full false, fileA .full) ⟨6, go!"F", 62⟩ go!"m/b" uses_F
    dependency.notIndexed upto os hr x hx hsym).2.2.2

/-- The import of `m/b` leads to the clause of its file. -/
example (path : Str) (occs : List Occurrence) (syms : List (SymInfo × List Str)) (hm : (run .full false).messages[1]? = some (.document path occs syms)) :
    let ms := (run .alone true).messages
    ∃ x ∈ occs, x.isDef = false ∧ x.range = [0, 21, 24] ∧
      (∃ s, (descriptionsOf ms).filter (fun s => s.1.symbol = x.symbol) = [s] ∧ s.1.displayName = go!"b") ∧
      (definitionsOf ms).filter (fun y => y.symbol = x.symbol) = [clauseDefinition (pkgB true) fileB] :=
  C111_packages (D' := deps) opts ord ord writer writer (typed .alone true) ord_ok (namedTypes .alone true) (all_distinct .alone true) (no_packages true)
    parsedProject module_fields (by decide +kernel) (p := pkgB true) (f := fileB) (by simp [project, pkgB, envB]) (by simp [pkgB])
    (typed .full false) ord_ok (no_packages false) (pkgB false) (by simp [all, pkgB, envB]) rfl 0 (pkgA .full false, fileA .full) rfl path occs syms hm
    (.imp 100 none 20) (List.mem_of_getElem (i := 0) (h := by decide +kernel) rfl) _ (.imported 100 none 20 rfl)

/-- The reference `x.M` does not lead there. -/
example (upto : List Ident) (os : List Occurrence)
    (hr : IdentRefs deps (project .full false) (all .full false) (pkgA .full false, fileA .full) upto ⟨8, go!"M", 72⟩ os) :
    ∀ x ∈ os, x.symbol ≠ go!"scip-go gomod m v1 `m/b`/I#M." :=
  (C111_reference (typed .full false) parsedProject (module_fields _ (by simp [all, pkgB, envB])) denoted_M fileB (by simp [pkgB]) entity_M dependency
    (pkgA .full false, fileA .full) ⟨8, go!"M", 72⟩ uses_M upto os hr).2 id

/-- Any symbol that means `F` is the one of its definition; none that means `M` is. -/
example (sym : Str) (h : NamedBy deps (project .full false) (all .full false) (objF false) sym) : sym = go!"scip-go gomod m v1 `m/b`/F()." :=
  (C111_symbol (typed .full false) parsedProject (module_fields _ (by simp [all, pkgB, envB])) denoted_F fileB (by simp [pkgB]) entity_F dependency rfl
    sym h).2 trivial

example (sym : Str) (h : NamedBy deps (project .full false) (all .full false) (mM false).obj sym) : sym ≠ go!"scip-go gomod m v1 `m/b`/I#M." :=
  fun e => (C111_symbol (typed .full false) parsedProject (module_fields _ (by simp [all, pkgB, envB])) denoted_M fileB (by simp [pkgB]) entity_M dependency rfl
    sym h).1 e

theorem denoted_I : Denoted deps (project .alone true) (all .alone true) (pkgB true) fileB ⟨11, go!"I", 115⟩ [⟨go!"m/b", .nspace⟩, ⟨go!"I", .typ⟩] where
  package := by simp [project, pkgB, envB]
  file := by simp [pkgB]
  names := names_B
  entity := .typ (n := ⟨11, go!"I", 115⟩) (typ := .ifaceT [.field 125 [⟨12, go!"M", 125⟩] (.funcT [] [] []) [] []])
    ⟨.typ, _, [], [], [], ⟨fileB.name, declsB, by simp [pkgB, SourceFile.node, fileB], List.mem_of_getElem (i := 0) (h := by decide) rfl⟩, List.mem_singleton.2 rfl⟩ (by decide)
  read := by decide +kernel

/-- Whatever means the type `I` of the dependency as an external symbol or as a relationship leads to its declaration. -/
example : LeadsTo deps (pkgB true) ⟨11, go!"I", 115⟩ (run .alone true).messages (typeSymbol (pkgB false) go!"I") :=
  type_leads (i := ⟨11, go!"I", 115⟩) opts (typed .alone true) parsedProject module_fields _
    (C87_index deps opts ord writer _ _ (objs true) (typed .alone true) ord_ok (namedTypes .alone true) (all_distinct .alone true) (no_packages true)
      (by decide +kernel))
    denoted_I (by decide +kernel) (by rintro ⟨x, hx, _⟩; simp [pkgB] at hx) rfl rfl

/-- In the sample of C49 there is an external symbol, of the type `R` of package `fmt`. -/
example : ∃ sym rels q t n, Message.external sym rels ∈ IndexSample.run.messages ∧ DependencyType IndexSample.project IndexSample.all q t n := by
  have h : ∃ m ∈ IndexSample.run.messages, (match m with | .external _ _ => true | _ => false) = true := by decide +kernel
  obtain ⟨m, hm, h⟩ := h
  cases m with
  | external sym rels =>
    obtain ⟨q, t, n, h1, _⟩ := C111_external IndexSample.run_index sym rels hm
    exact ⟨sym, rels, q, t, n, hm, h1⟩
  | metadata => simp at h
  | document => simp at h

end Verif.ModularitySample
