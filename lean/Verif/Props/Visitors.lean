import Verif.Lemmas.CheckSyntax
import Verif.Props.Symbol
import Verif.Lemmas.Package
import Verif.Lemmas.Grows
import Verif.Props.Symbol
/-! # C21-C25, C70: what the collecting pass records for a package -/
namespace Verif
open Spec

/-! ## A sample file used to show that the hypotheses can be met -/
namespace Sample

def id (u : Nat) (n : Str) (p : Nat) : Ident := ⟨u, n, p⟩
def ty (n : Str) (p : Nat) : Node := .ident ⟨1000 + p, n, p⟩

def env : PkgEnv where
  pkgPath := go!"m/p"
  module := ⟨go!"m", go!"v1"⟩
  defs := fun _ => none
  uses := fun _ => none
  anonKey := fun n => match n with | .structT _ => go!"$anon1" | .ifaceT _ => go!"$anon2" | _ => []
  signature := fun _ => []
  position := fun p => ⟨1, p⟩

/-- `type T struct { X int; *E; A []struct{ Y int } }` -/
def typeT : Node := .genDecl .typ [.typeSpec (id 1 go!"T" 10) []
  (.structT [.field 12 [id 2 go!"X" 12] (ty go!"int" 14) [] [],
    .field 18 [] (.star (.ident (id 3 go!"E" 19))) [] [],
    .field 22 [id 4 go!"A" 22] (.arrayT [] (.structT [.field 30 [id 5 go!"Y" 30] (ty go!"int" 32) [] []])) [] []]) []] []

/-- `type I interface { M() }` -/
def typeI : Node := .genDecl .typ [.typeSpec (id 6 go!"I" 40) []
  (.ifaceT [.field 45 [id 7 go!"M" 45] (.funcT [] [] []) [] []]) []] []

/-- `var a, b int` -/
def varAB : Node := .genDecl .var [.valueSpec 50 [id 8 go!"a" 50, id 9 go!"b" 53] [ty go!"int" 55] [] [] []] []

/-- `func (t *T) Do() {}` -/
def methodDo : Node := .funcDecl [.field 60 [id 10 go!"t" 60] (.star (ty go!"T" 63)) [] []] (id 11 go!"Do" 66)
  (.funcT [] [] []) [.block []] 58 75 []

/-- `func F() {}` -/
def funcF : Node := .funcDecl [] (id 12 go!"F" 80) (.funcT [] [] []) [.block []] 78 90 []

def decls : List Node := [typeT, typeI, varAB, methodDo, funcF]
def file : Node := .file (id 0 go!"p" 1) decls

theorem filesOk : FilesOk [file] := by
  intro n ds h d hd
  simp only [List.mem_singleton, file, Node.file.injEq] at h
  obtain ⟨rfl, rfl⟩ := h
  simp only [decls, List.mem_cons, List.not_mem_nil, or_false] at hd
  rcases hd with rfl | rfl | rfl | rfl | rfl
  · exact ⟨by simp, by simp⟩
  · exact ⟨by simp, by simp⟩
  · exact ⟨by simp, fun _ => parsedTree _ (by decide +kernel)⟩
  · exact ⟨⟨_, .method (.star (.ident _))⟩, .funcT (by simp)⟩
  · exact ⟨⟨_, .func⟩, .funcT (by simp)⟩

/-- The table the collecting pass produces for the sample file, as positions and symbols. -/
theorem collected : ((visitPackageSyntax env [file] []).map (fun t => t.map fun e => (e.1, e.2.symbol))) = some
    [(80, go!"scip-go gomod m v1 `m/p`/F()."),
     (66, go!"scip-go gomod m v1 `m/p`/T#Do()."),
     (53, go!"scip-go gomod m v1 `m/p`/b."),
     (50, go!"scip-go gomod m v1 `m/p`/a."),
     (45, go!"scip-go gomod m v1 `m/p`/I#M."),
     (40, go!"scip-go gomod m v1 `m/p`/I#"),
     (30, go!"scip-go gomod m v1 `m/p`/T#$anon1#Y."),
     (22, go!"scip-go gomod m v1 `m/p`/T#A."),
     (19, go!"scip-go gomod m v1 `m/p`/T#E."),
     (12, go!"scip-go gomod m v1 `m/p`/T#X."),
     (10, go!"scip-go gomod m v1 `m/p`/T#")] := by
  decide +kernel

end Sample

/-! ## The whole package -/

/-- **C21** (whole package): for every list of files with well-formed declarations the collecting pass succeeds and
records exactly what the package declares: all types with the members of their bodies, functions and methods,
variables and constants — and nothing else. -/
theorem C21_package_collected (env : PkgEnv) (files : List Node) (hok : FilesOk files) (t : Table) :
    ∃ t', visitPackageSyntax env files t = some t' ∧ Collected env t t' (PackageDeclares env files) :=
  (visitPackageSyntax_regs (Q := fun _ _ => True) env files hok (fun _ _ _ d _ => DeclQ_true d)).collected t

example : FilesOk [Sample.file] := Sample.filesOk

/-- **C21** (types of a file, any starting table, no side condition): the scope is restored, and exactly the declared
types and their members are recorded, each at the position of its name. -/
theorem C21_type_declarations (env : PkgEnv) (decls : List Node) (t : Table) (cur : Option Parent) :
    let st' := typeDecls env decls ⟨[⟨env.pkgPath, .nspace⟩], t, cur, []⟩
    st'.scope = [⟨env.pkgPath, .nspace⟩] ∧ st'.curDecl = cur ∧
    Collected env t st'.table (fun i p q => q = i.pos ∧ FileTypeDeclares env.anonKey env.pkgPath decls i p) := by
  obtain ⟨rs, h1, h2, h3⟩ := typeDecls_declares (Q := fun _ _ => True) env decls (fun _ _ _ _ _ _ _ _ _ => trivial)
    (fun _ _ _ _ _ _ _ _ _ _ => trivial)
  have e := h1 ⟨[⟨env.pkgPath, .nspace⟩], t, cur, []⟩ rfl
  have hr : RegsAs env (fun _ _ => True) (fun t => some (t.setAll rs))
      (fun i p q => q = i.pos ∧ FileTypeDeclares env.anonKey env.pkgPath decls i p) := ⟨rs, fun _ => rfl, h2, h3⟩
  obtain ⟨t', ht', hc⟩ := hr.collected t
  simp only [Option.some.injEq] at ht'
  subst ht'
  dsimp only
  rw [e]
  exact ⟨rfl, rfl, hc⟩

/-- **C21** (paths): what exactly a type declaration `type T …` of a package declares: `T` itself under
`pkg/T#`; a named field or interface method `f` of its body under `pkg/T#f.`; and every path it declares
starts with `pkg/T#`. -/
theorem C21_type_paths (env : PkgEnv) (decls : List Node) (tok : Tok) (specs : List Node) (doc : Str)
    (n : Ident) (tps : List Node) (typ : Node) (d : Str)
    (hd : .genDecl tok specs doc ∈ decls) (hs : .typeSpec n tps typ d ∈ specs) :
    FileTypeDeclares env.anonKey env.pkgPath decls n [⟨env.pkgPath, .nspace⟩, ⟨n.name, .typ⟩] ∧
    (∀ pos names ft fd fc, HasField typ (.field pos names ft fd fc) → ∀ f ∈ names,
      FileTypeDeclares env.anonKey env.pkgPath decls f
        [⟨env.pkgPath, .nspace⟩, ⟨n.name, .typ⟩, ⟨f.name, .term⟩]) ∧
    (∀ i p, TypeSpecDeclares env.anonKey env.pkgPath (.typeSpec n tps typ d) i p →
      ∃ ds, p = [⟨env.pkgPath, .nspace⟩, ⟨n.name, .typ⟩] ++ ds) := by
  refine ⟨⟨tok, specs, doc, _, hd, hs, .name _ _ _ _⟩, ?_, ?_⟩
  · intro pos names ft fd fc hf f hm
    exact ⟨tok, specs, doc, _, hd, hs, .member (.named hf hm)⟩
  · intro i p h
    cases h with
    | name => exact ⟨[], by simp⟩
    | member h => obtain ⟨ds, _, rfl⟩ := member_below h; exact ⟨ds, rfl⟩

example : (.genDecl .typ [.typeSpec (Sample.id 6 go!"I" 40) []
    (.ifaceT [.field 45 [Sample.id 7 go!"M" 45] (.funcT [] [] []) [] []]) []] [] : Node) ∈ Sample.decls := by
  simp [Sample.decls, Sample.typeI]

/-! ## Variables and constants -/

/-- **C22**, what exactly happens: a name declared by a package-level `var` or `const` is recorded at its position under `pkg/name.` with the scopes in
between that the specs before it in its declaration have left open (`leftOpen`): none, unless a declared type is written in parentheses.  So the
symbol is the expected one exactly if nothing has been left open. -/
theorem C22_var_names_exact (env : PkgEnv) (files : List Node) (hok : FilesOk files) (t : Table)
    (fname : Ident) (decls pre post : List Node) (tok : Tok) (doc : Str) (pos : Nat) (names : List Ident)
    (typ vs : List Node) (d c : Str) (n : Ident)
    (hf : .file fname decls ∈ files) (hd : .genDecl tok (pre ++ .valueSpec pos names typ vs d c :: post) doc ∈ decls)
    (ht : tok = .var ∨ tok = .const) (hn : n ∈ names)
    (huniq : ∀ i p i' p', PackageDeclares env files i p n.pos → PackageDeclares env files i' p' n.pos → p = p')
    (hm : fieldOk env.module.path) (hv : fieldOk env.module.version) :
    ∃ t', visitPackageSyntax env files t = some t' ∧
      t'.getSymbol n.pos = some (formatSymbol ⟨env.module.path, env.module.version⟩
        (⟨env.pkgPath, .nspace⟩ :: leftOpenList (specScopeName env.position) pre ++ [⟨n.name, .term⟩])) ∧
      (t'.getSymbol n.pos = some (formatSymbol ⟨env.module.path, env.module.version⟩ [⟨env.pkgPath, .nspace⟩, ⟨n.name, .term⟩]) ↔
        leftOpenList (specScopeName env.position) pre = []) := by
  obtain ⟨t', h1, h2⟩ := C21_package_collected env files hok t
  have hdecl : PackageDeclares env files n (⟨env.pkgPath, .nspace⟩ :: leftOpenList (specScopeName env.position) pre ++ [⟨n.name, .term⟩]) n.pos :=
    ⟨fname, decls, hf, .var hd ht (.decl ht rfl (.name hn))⟩
  have hs := h2.exact _ _ _ hdecl (fun i' p' h => huniq _ _ _ _ h hdecl)
  refine ⟨t', h1, hs, ?_⟩
  rw [hs]
  constructor
  · intro h
    have := (C01_symbol_injective _ _ _ _ _ _ hm hv hm hv (Option.some.inj h)).2.2
    simp only [List.cons_append, List.cons.injEq, true_and] at this
    have := congrArg List.length this
    simpa using this
  · intro h
    rw [h]; rfl

/-- **C22**, for names that are not preceded, in the same declaration, by a spec with a parenthesised (or otherwise unhandled) declared type: a name declared
by a package-level `var` or `const` is recorded at its position under `pkg/name.`, whatever else the package declares (as long as nothing else is declared at
the same position).  Missing for the full property: names after declared types such as `(int)`, see `C22_paren_type_leaks_scope` and
`C22_var_names_exact`. -/
theorem C22_var_names_partial (env : PkgEnv) (files : List Node) (hok : FilesOk files) (t : Table)
    (fname : Ident) (decls pre post : List Node) (tok : Tok) (doc : Str) (pos : Nat) (names : List Ident)
    (typ vs : List Node) (d c : Str) (n : Ident)
    (hf : .file fname decls ∈ files) (hd : .genDecl tok (pre ++ .valueSpec pos names typ vs d c :: post) doc ∈ decls)
    (ht : tok = .var ∨ tok = .const) (hn : n ∈ names) (hpre : ∀ s ∈ pre, HandledTypes s)
    (huniq : ∀ i p, PackageDeclares env files i p n.pos → p = [⟨env.pkgPath, .nspace⟩, ⟨n.name, .term⟩]) :
    ∃ t', visitPackageSyntax env files t = some t' ∧
      t'.getSymbol n.pos = some (formatSymbol ⟨env.module.path, env.module.version⟩
        [⟨env.pkgPath, .nspace⟩, ⟨n.name, .term⟩]) := by
  obtain ⟨t', h1, h2⟩ := C21_package_collected env files hok t
  refine ⟨t', h1, ?_⟩
  have hdecl : PackageDeclares env files n [⟨env.pkgPath, .nspace⟩, ⟨n.name, .term⟩] n.pos := by
    refine ⟨fname, decls, hf, .var hd ht (.decl ht rfl ?_)⟩
    rw [leftOpenList_nil _ hpre]
    exact .name hn
  exact h2.exact _ _ _ hdecl huniq

/-- The uniqueness hypothesis of `C22_var_names_partial` is met by the sample package. -/
example : ∀ i p, PackageDeclares Sample.env [Sample.file] i p 53 → p = [⟨go!"m/p", .nspace⟩, ⟨go!"b", .term⟩] := by
  intro i p h
  obtain ⟨t', h1, h2⟩ := C21_package_collected Sample.env [Sample.file] Sample.filesOk []
  obtain ⟨n, ds, hf, hd⟩ := h
  simp only [List.mem_singleton, Sample.file, Node.file.injEq] at hf
  obtain ⟨rfl, rfl⟩ := hf
  generalize hq : (53 : Nat) = q at hd
  cases hd with
  | typ hd =>
    obtain ⟨tok, specs, doc, spec, hm, hs, hd⟩ := hd
    simp only [Sample.decls, List.mem_cons, Sample.typeT, Sample.typeI, Sample.varAB, Sample.methodDo, Sample.funcF,
      Node.genDecl.injEq, reduceCtorEq, List.not_mem_nil, or_false] at hm
    rcases hm with ⟨rfl, rfl, rfl⟩ | ⟨rfl, rfl, rfl⟩ | ⟨rfl, rfl, rfl⟩ <;> (simp only [List.mem_singleton] at hs; subst hs)
    · cases hd with
      | name => simp [Sample.id] at hq
      | member hd =>
        exfalso
        clear h1 h2
        generalize ho : [⟨Sample.env.pkgPath, Suffix.nspace⟩, (⟨_, .typ⟩ : Descriptor)] = o at hd
        clear ho
        cases hd with
        | named hf hi =>
          cases hf with | struct hf =>
          simp only [List.mem_cons, List.not_mem_nil, or_false, Node.field.injEq] at hf
          rcases hf with ⟨_, rfl, _⟩ | ⟨_, rfl, _⟩ | ⟨_, rfl, _⟩ <;> simp at hi <;> (subst hi; simp [Sample.id] at hq)
        | embedded _ hf he =>
          cases hf with | struct hf =>
          simp only [List.mem_cons, List.not_mem_nil, or_false, Node.field.injEq] at hf
          rcases hf with ⟨_, h, _⟩ | ⟨_, _, rfl, _⟩ | ⟨_, h, _⟩
          · simp at h
          · cases he with | star he => cases he; simp [Sample.id] at hq
          · simp at h
        | embeddedLit h _ _ => simp [isIfaceBody] at h
        | anon hf hne hr _ hm =>
          cases hf with | struct hf =>
          simp only [List.mem_cons, List.not_mem_nil, or_false, Node.field.injEq] at hf
          rcases hf with ⟨_, _, rfl, _⟩ | ⟨_, rfl, rfl, _⟩ | ⟨_, _, rfl, _⟩
          · cases hr
          · simp at hne
          · cases hr with | array hr => ?_
            cases hr with | struct => ?_
            cases hm with
            | named hf hi =>
              cases hf with | struct hf =>
              simp only [List.mem_singleton, Node.field.injEq] at hf
              obtain ⟨_, rfl, _⟩ := hf
              simp at hi; subst hi; simp [Sample.id] at hq
            | embedded _ hf he =>
              cases hf with | struct hf =>
              simp at hf
            | embeddedLit h _ _ => simp [isIfaceBody] at h
            | anon hf hne hr _ hm =>
              cases hf with | struct hf =>
              simp only [List.mem_singleton, Node.field.injEq] at hf
              obtain ⟨_, _, rfl, _⟩ := hf
              cases hr
    · cases hd with
      | name => simp [Sample.id] at hq
      | member hd =>
        cases hd with
        | named hf hi =>
          cases hf with | iface hf =>
          simp only [List.mem_singleton, Node.field.injEq] at hf
          obtain ⟨_, rfl, _⟩ := hf
          simp at hi; subst hi; simp [Sample.id] at hq
        | embedded h _ _ => simp [isIfaceBody] at h
        | embeddedLit _ hf _ => cases hf with | iface hf => simp at hf
        | anon hf hne hr _ hm =>
          cases hf with | iface hf =>
          simp only [List.mem_singleton, Node.field.injEq] at hf
          obtain ⟨_, _, rfl, _⟩ := hf
          cases hr
    · cases hd
  | func hm hd =>
    simp only [Sample.decls, List.mem_cons, Sample.typeT, Sample.typeI, Sample.varAB, Sample.methodDo, Sample.funcF,
      List.not_mem_nil, or_false] at hm
    rcases hm with rfl | rfl | rfl | rfl | rfl
    · cases hd
    · cases hd
    · cases hd
    · cases hd with
      | name _ => simp [Sample.id] at hq
      | result _ h => cases h with | result h _ => simp at h
    · cases hd with
      | name _ => simp [Sample.id] at hq
      | result _ h => cases h with | result h _ => simp at h
  | var hm ht hd =>
    simp only [Sample.decls, List.mem_cons, Sample.typeT, Sample.typeI, Sample.varAB, Sample.methodDo, Sample.funcF,
      Node.genDecl.injEq, reduceCtorEq, List.not_mem_nil, or_false] at hm
    rcases hm with ⟨rfl, rfl, rfl⟩ | ⟨rfl, rfl, rfl⟩ | ⟨rfl, rfl, rfl⟩
    · simp at ht
    · simp at ht
    · cases hd with
      | descend h => simp [isPlain] at h
      | @decl _ _ _ pre s post _ _ _ _ _ hs hd =>
        obtain ⟨rfl, rfl, rfl⟩ := single_split hs
        cases hd with
        | descend h => simp [isPlain] at h
        | name hi =>
          simp at hi
          rcases hi with rfl | rfl
          · simp [Sample.id] at hq
          · rfl
        | inType _ hm ho _ =>
          have := ho _ (by simp; rfl)
          cases this
        | inValue _ _ hm _ => simp at hm

/-- **C22 is false in general**: in `var ( a (int); b int )` the parenthesised type makes the visitor leave `a` on the
scope, so that `b` is recorded as `m/p/a:b.` instead of `m/p/b.`. -/
theorem C22_paren_type_leaks_scope :
    let d : Node := .genDecl .var
      [.valueSpec 10 [Sample.id 1 go!"a" 10] [.paren (Sample.ty go!"int" 13)] [] [] [],
       .valueSpec 20 [Sample.id 2 go!"b" 20] [Sample.ty go!"int" 22] [] [] []] []
    ((visitPackageSyntax Sample.env [.file (Sample.id 0 go!"p" 1) [d]] []).map (fun t => t.getSymbol 20)) =
      some (some (formatSymbol ⟨go!"m", go!"v1"⟩ [⟨go!"m/p", .nspace⟩, ⟨go!"a", .metadesc⟩, ⟨go!"b", .term⟩])) := by
  decide +kernel

namespace ParenSample
open Sample

/-- `var ( a (int); b int )` -/
def declAB : Node := .genDecl .var
  [.valueSpec 10 [id 1 go!"a" 10] [.paren (ty go!"int" 13)] [] [] [], .valueSpec 20 [id 2 go!"b" 20] [ty go!"int" 22] [] [] []] []

def file : Node := .file (id 0 go!"p" 1) [declAB]

theorem filesOk : FilesOk [file] := by
  intro name ds h d hd
  simp only [file, List.mem_singleton, Node.file.injEq] at h
  obtain ⟨rfl, rfl⟩ := h
  rw [List.mem_singleton.1 hd]
  exact ⟨by simp, fun _ => parsedTree declAB (by decide +kernel)⟩

theorem unique (i : Ident) (p : List Descriptor) (h : PackageDeclares env [file] i p 20) :
    p = [⟨go!"m/p", .nspace⟩, ⟨go!"a", .metadesc⟩, ⟨go!"b", .term⟩] := by
  obtain ⟨n, ds, hf, hd⟩ := h
  simp only [List.mem_singleton, file, Node.file.injEq] at hf
  obtain ⟨rfl, rfl⟩ := hf
  generalize hq : (20 : Nat) = q at hd
  cases hd with
  | typ hd =>
    obtain ⟨tok, specs, doc, spec, hm, hs, hd⟩ := hd
    simp only [declAB, List.mem_singleton, Node.genDecl.injEq] at hm
    obtain ⟨rfl, rfl, rfl⟩ := hm
    simp only [List.mem_cons, List.not_mem_nil, or_false] at hs
    rcases hs with rfl | rfl <;> cases hd
  | func hm hd =>
    rw [List.mem_singleton.1 hm] at hd
    cases hd
  | var hm ht hd =>
    simp only [declAB, List.mem_singleton, Node.genDecl.injEq] at hm
    obtain ⟨rfl, rfl, rfl⟩ := hm
    cases hd with
    | descend h => simp [isPlain] at h
    | @decl _ _ _ pre s post _ _ _ _ _ hs hd =>
      match pre, hs with
      | [], hs =>
        simp only [List.nil_append, List.cons.injEq] at hs
        obtain ⟨rfl, rfl⟩ := hs
        cases hd with
        | descend h => simp [isPlain] at h
        | name hi => simp at hi; subst hi; simp [Sample.id] at hq
        | inType _ hm ho _ =>
          have := ho _ (by simp; rfl)
          cases this
        | inValue _ _ hm _ => simp at hm
      | [_], hs =>
        simp only [List.cons_append, List.nil_append, List.cons.injEq] at hs
        obtain ⟨rfl, rfl, rfl⟩ := hs
        cases hd with
        | descend h => simp [isPlain] at h
        | name hi => simp at hi; subst hi; rfl
        | inType _ hm ho _ =>
          have := ho _ (by simp; rfl)
          cases this
        | inValue _ _ hm _ => simp at hm
      | _ :: _ :: _, hs => simp at hs

/-- The hypotheses of `C22_var_names_exact` are met where it matters: after a parenthesised type, the scope `a` has been left open. -/
example : ∃ t, visitPackageSyntax env [file] [] = some t ∧
    t.getSymbol 20 = some (formatSymbol ⟨go!"m", go!"v1"⟩ [⟨go!"m/p", .nspace⟩, ⟨go!"a", .metadesc⟩, ⟨go!"b", .term⟩]) := by
  obtain ⟨t, ht, h, _⟩ := C22_var_names_exact env [file] filesOk [] (id 0 go!"p" 1) [declAB] [.valueSpec 10 [id 1 go!"a" 10] [.paren (ty go!"int" 13)] [] [] []] []
    .var [] 20 [id 2 go!"b" 20] [ty go!"int" 22] [] [] [] (id 2 go!"b" 20) (List.mem_singleton.2 rfl) (List.mem_singleton.2 rfl) (.inl rfl) (List.mem_singleton.2 rfl)
    (fun i p i' p' h h' => (unique i p h).trans (unique i' p' h').symm) (by decide) (by decide)
  exact ⟨t, ht, h⟩

end ParenSample

/-! ## Functions and methods -/

/-- **C23**: every function declaration is recorded under `pkg/f().` and every method declaration under
`pkg/T#m().`, where `T` is the base name of the receiver type through any nesting of pointers,
parentheses and type arguments. -/
theorem C23_functions_and_methods (env : PkgEnv) (files : List Node) (hok : FilesOk files) (t : Table)
    (fname : Ident) (decls : List Node) (recv : List Node) (n : Ident) (typ : Node) (body : List Node) (a b : Nat)
    (doc : Str) (r : List Descriptor)
    (hf : .file fname decls ∈ files) (hd : .funcDecl recv n typ body a b doc ∈ decls) (hr : RecvPath recv r)
    (huniq : ∀ i p, PackageDeclares env files i p n.pos →
      p = ⟨env.pkgPath, .nspace⟩ :: r ++ [⟨n.name, .method⟩]) :
    ∃ t', visitPackageSyntax env files t = some t' ∧
      t'.getSymbol n.pos = some (formatSymbol ⟨env.module.path, env.module.version⟩
        (⟨env.pkgPath, .nspace⟩ :: r ++ [⟨n.name, .method⟩])) := by
  obtain ⟨t', h1, h2⟩ := C21_package_collected env files hok t
  refine ⟨t', h1, ?_⟩
  exact h2.exact _ _ _ ⟨fname, decls, hf, .func hd (.name hr)⟩ huniq

/-- The receiver of the method of the sample file. -/
example : RecvPath [.field 60 [Sample.id 10 go!"t" 60] (.star (.paren (.index (Sample.ty go!"T" 63) [Sample.ty go!"K" 65]))) [] []]
    [⟨go!"T", .typ⟩] := .method (.star (.paren (.index (.ident _))))

/-- **C23** (the receiver's base type is unique): a receiver determines its path. -/
theorem C23_receiver_path_unique (recv : List Node) (r r' : List Descriptor) (h : RecvPath recv r)
    (h' : RecvPath recv r') : r = r' := by
  rw [receiverTypeName_cases recv r h, receiverTypeName_cases recv r' h']

/-! ## Embedded fields -/

/-- **C24**, for struct types in type declarations: an embedded field is recorded at the position of the embedded type's
name, under the owner and that name.  Missing: structs in variable declarations, for which it is false
(`C24_embedded_in_var_struct_misplaced`). -/
theorem C24_embedded_field_position_partial (env : PkgEnv) (decls : List Node) (t : Table) (cur : Option Parent)
    (tok : Tok) (specs : List Node) (doc : Str) (n : Ident) (tps fs : List Node) (d : Str) (pos : Nat) (ft : Node)
    (fd fc : Str) (e : Ident)
    (hd : .genDecl tok specs doc ∈ decls) (hs : .typeSpec n tps (.structT fs) d ∈ specs)
    (hf : .field pos [] ft fd fc ∈ fs) (he : EmbeddedName ft e)
    (huniq : ∀ i p, i.pos = e.pos → FileTypeDeclares env.anonKey env.pkgPath decls i p →
      p = [⟨env.pkgPath, .nspace⟩, ⟨n.name, .typ⟩, ⟨e.name, .term⟩]) :
    (typeDecls env decls ⟨[⟨env.pkgPath, .nspace⟩], t, cur, []⟩).table.getSymbol e.pos =
      some (formatSymbol ⟨env.module.path, env.module.version⟩
        [⟨env.pkgPath, .nspace⟩, ⟨n.name, .typ⟩, ⟨e.name, .term⟩]) := by
  have h := (C21_type_declarations env decls t cur).2.2
  refine h.exact e _ e.pos ⟨rfl, tok, specs, doc, _, hd, hs, ?_⟩ ?_
  · exact .member (.embedded rfl (.struct hf) he)
  · rintro i p ⟨hpos, hdecl⟩
    exact huniq i p hpos.symm hdecl

example : EmbeddedName (.star (.selector (Sample.ty go!"pkg" 1) (Sample.id 3 go!"E" 19))) (Sample.id 3 go!"E" 19) :=
  .star (.selector _ _)

/-- **C24 is false for structs in variable declarations**: in `var v struct { *E }` the embedded field `E` (name at
position 19) is recorded at the position 18 of the `*`, so the lookup at the name's position fails. -/
theorem C24_embedded_in_var_struct_misplaced :
    let d : Node := .genDecl .var
      [.valueSpec 10 [Sample.id 1 go!"v" 10] [.structT [.field 18 [] (.star (.ident (Sample.id 2 go!"E" 19))) [] []]] [] [] []] []
    ((visitPackageSyntax Sample.env [.file (Sample.id 0 go!"p" 1) [d]] []).map
      (fun t => (t.getSymbol 19, (t.getSymbol 18).isSome))) = some (none, true) := by
  decide +kernel

/-- **C24** for a whole package: whatever else its files declare, an embedded field of a struct type in a type declaration is recorded at the position of
the embedded type's name. -/
theorem C24_whole_package_partial (env : PkgEnv) (files : List Node) (hok : FilesOk files) (t : Table)
    (fname : Ident) (decls : List Node) (tok : Tok) (specs : List Node) (doc : Str) (n : Ident) (tps fs : List Node) (d : Str) (pos : Nat) (ft : Node)
    (fd fc : Str) (e : Ident)
    (hfile : .file fname decls ∈ files) (hd : .genDecl tok specs doc ∈ decls) (hs : .typeSpec n tps (.structT fs) d ∈ specs)
    (hf : .field pos [] ft fd fc ∈ fs) (he : EmbeddedName ft e)
    (huniq : ∀ i p, PackageDeclares env files i p e.pos → p = [⟨env.pkgPath, .nspace⟩, ⟨n.name, .typ⟩, ⟨e.name, .term⟩]) :
    ∃ t', visitPackageSyntax env files t = some t' ∧
      t'.getSymbol e.pos = some (formatSymbol ⟨env.module.path, env.module.version⟩ [⟨env.pkgPath, .nspace⟩, ⟨n.name, .typ⟩, ⟨e.name, .term⟩]) := by
  obtain ⟨t', h1, h2⟩ := C21_package_collected env files hok t
  exact ⟨t', h1, h2.exact e _ e.pos ⟨fname, decls, hfile, .typ ⟨tok, specs, doc, _, hd, hs, .member (.embedded rfl (.struct hf) he)⟩⟩ huniq⟩

/-- **C24**, what exactly happens to the struct types of variable declarations: an embedded field is recorded at the position where the *field* begins (that
of a `*` or of a package name, if there is one).  So it is found under the position of the embedded type's name if the field begins with it, and otherwise
nothing is found there, unless something else is declared at that position. -/
theorem C24_var_struct_exact (env : PkgEnv) (files : List Node) (hok : FilesOk files)
    (fname : Ident) (decls pre post : List Node) (tok : Tok) (doc : Str) (pos : Nat) (names : List Ident) (fs vs : List Node) (d c : Str)
    (fpos : Nat) (ft : Node) (fd fc : Str) (e : Ident)
    (hfile : .file fname decls ∈ files) (hd : .genDecl tok (pre ++ .valueSpec pos names [.structT fs] vs d c :: post) doc ∈ decls)
    (ht : tok = .var ∨ tok = .const) (hn : names ≠ []) (hf : .field fpos [] ft fd fc ∈ fs) (he : EmbeddedName ft e)
    (huniq : ∀ i p i' p', PackageDeclares env files i p fpos → PackageDeclares env files i' p' fpos → p = p')
    (hfree : fpos = e.pos ∨ ∀ i p, ¬ PackageDeclares env files i p e.pos) :
    ∃ t', visitPackageSyntax env files [] = some t' ∧
      t'.getSymbol fpos = some (formatSymbol ⟨env.module.path, env.module.version⟩
        (⟨env.pkgPath, .nspace⟩ :: leftOpenList (specScopeName env.position) pre ++ [⟨specScopeName env.position pos names, .metadesc⟩, ⟨e.name, .term⟩])) ∧
      ((t'.getSymbol e.pos).isSome ↔ fpos = e.pos) := by
  obtain ⟨t', h1, h2⟩ := C21_package_collected env files hok []
  have hparsed : Parsed (.structT fs) := by
    have h := (hok fname decls hfile _ hd).2 ht
    have h := h.child (c := .valueSpec pos names [.structT fs] vs d c) (by simp [children])
    exact h.child (by simp [children])
  have hfields : ∀ l : List Node, (∀ f ∈ l, f ∈ fs) → leftOpenList (specScopeName env.position) l = [] := by
    intro l hl
    induction l with
    | nil => rfl
    | cons f l ih =>
      obtain ⟨_, hp, _⟩ := hparsed
      obtain ⟨_, _, _, _, _, rfl⟩ := hp f (.struct (hl f List.mem_cons_self))
      rw [leftOpenList, leftOpen, ih fun f hf => hl f (List.mem_cons_of_mem _ hf)]
      rfl
  obtain ⟨fpre, fpost, hsplit⟩ := List.append_of_mem hf
  have hdecl : PackageDeclares env files e
      (⟨env.pkgPath, .nspace⟩ :: leftOpenList (specScopeName env.position) pre ++ [⟨specScopeName env.position pos names, .metadesc⟩, ⟨e.name, .term⟩]) fpos := by
    refine ⟨fname, decls, hfile, .var hd ht (.decl ht rfl (.inType hn (List.mem_singleton.2 rfl) ?_ (.descend (c := .field fpos [] ft fd fc) rfl hsplit ?_)))⟩
    · intro t' h
      simp only [List.head?_cons, Option.mem_some_iff] at h
      subst h
      exact .struct fs
    · rw [hfields fpre (fun f hf => by rw [hsplit]; exact List.mem_append_left _ hf), List.append_nil]
      have := VarDeclares.embedded (key := env.anonKey) (sname := specScopeName env.position)
        (o := [⟨env.pkgPath, .nspace⟩] ++ leftOpenList (specScopeName env.position) pre ++ [⟨specScopeName env.position pos names, .metadesc⟩]) (pos := fpos) (d := fd) (c := fc) he
      simpa using this
  have hs := h2.exact _ _ _ hdecl (fun i' p' h => huniq _ _ _ _ h hdecl)
  refine ⟨t', h1, hs, ?_, fun h => by rw [← h, hs]; rfl⟩
  intro h
  rcases hfree with h' | h'
  · exact h'
  · rw [Table.getSymbol, h2.frame e.pos h'] at h
    cases h

namespace ParenSample
open Sample

/-- `var v struct { *E; F }` -/
def declV : Node := .genDecl .var
  [.valueSpec 10 [id 1 go!"v" 10] [.structT [.field 18 [] (.star (.ident (id 2 go!"E" 19))) [] [], .field 30 [] (.ident (id 3 go!"F" 30)) [] []]] [] [] []] []

def fileV : Node := .file (id 0 go!"p" 1) [declV]

theorem filesOkV : FilesOk [fileV] := by
  intro name ds h d hd
  simp only [fileV, List.mem_singleton, Node.file.injEq] at h
  obtain ⟨rfl, rfl⟩ := h
  rw [List.mem_singleton.1 hd]
  exact ⟨by simp, fun _ => parsedTree declV (by decide +kernel)⟩

/-- All that is declared. -/
theorem declaredV (i : Ident) (p : List Descriptor) (q : Nat) (h : PackageDeclares env [fileV] i p q) :
    q = 10 ∨ (q = 18 ∧ p = [⟨go!"m/p", .nspace⟩, ⟨go!"v", .metadesc⟩, ⟨go!"E", .term⟩]) ∨ (q = 30 ∧ p = [⟨go!"m/p", .nspace⟩, ⟨go!"v", .metadesc⟩, ⟨go!"F", .term⟩]) := by
  obtain ⟨n, ds, hf, hd⟩ := h
  simp only [List.mem_singleton, fileV, Node.file.injEq] at hf
  obtain ⟨rfl, rfl⟩ := hf
  cases hd with
  | typ hd =>
    obtain ⟨tok, specs, doc, spec, hm, hs, hd⟩ := hd
    simp only [declV, List.mem_singleton, Node.genDecl.injEq] at hm
    obtain ⟨rfl, rfl, rfl⟩ := hm
    rw [List.mem_singleton.1 hs] at hd
    cases hd
  | func hm hd =>
    rw [List.mem_singleton.1 hm] at hd
    cases hd
  | var hm ht hd =>
    simp only [declV, List.mem_singleton, Node.genDecl.injEq] at hm
    obtain ⟨rfl, rfl, rfl⟩ := hm
    cases hd with
    | descend h => simp [isPlain] at h
    | @decl _ _ _ pre s post _ _ _ _ _ hs hd =>
      obtain ⟨rfl, rfl, rfl⟩ := single_split hs
      cases hd with
      | descend h => simp [isPlain] at h
      | name hi => simp at hi; subst hi; exact .inl rfl
      | inValue _ _ hm _ => simp at hm
      | inType _ hm _ hd =>
        rw [List.mem_singleton.1 hm] at hd
        cases hd with
        | @descend _ _ pre c post _ _ _ _ hs hd =>
          match pre, hs with
          | [], hs =>
            simp only [children, List.nil_append, List.cons.injEq] at hs
            obtain ⟨rfl, rfl⟩ := hs
            cases hd with
            | descend h => simp [isPlain] at h
            | named h => simp at h
            | anon h => simp at h
            | embedded h =>
              cases h with | star h => cases h with | ident => exact .inr (.inl ⟨rfl, rfl⟩)
          | [_], hs =>
            simp only [children, List.cons_append, List.nil_append, List.cons.injEq] at hs
            obtain ⟨rfl, rfl, rfl⟩ := hs
            cases hd with
            | descend h => simp [isPlain] at h
            | named h => simp at h
            | anon h => simp at h
            | embedded h => cases h with | ident => exact .inr (.inr ⟨rfl, rfl⟩)
          | _ :: _ :: _, hs => simp [children] at hs

/-- `C24_var_struct_exact` on both fields: `F` is found, `E` is not. -/
example : ∃ t, visitPackageSyntax env [fileV] [] = some t ∧ (t.getSymbol 30).isSome ∧ ¬ (t.getSymbol 19).isSome := by
  have h := C24_var_struct_exact env [fileV] filesOkV (id 0 go!"p" 1) [declV] [] [] .var [] 10 [id 1 go!"v" 10]
    [.field 18 [] (.star (.ident (id 2 go!"E" 19))) [] [], .field 30 [] (.ident (id 3 go!"F" 30)) [] []] [] [] []
  obtain ⟨t, h1, -, h2⟩ := h 18 (.star (.ident (id 2 go!"E" 19))) [] [] (id 2 go!"E" 19) (List.mem_singleton.2 rfl) (List.mem_singleton.2 rfl) (.inl rfl) (by simp)
    List.mem_cons_self (.star (.ident _))
    (fun i p i' p' h h' => by
      rcases declaredV _ _ _ h with h | ⟨_, rfl⟩ | ⟨h, _⟩ <;> rcases declaredV _ _ _ h' with h' | ⟨_, rfl⟩ | ⟨h', _⟩ <;> first | rfl | omega)
    (.inr fun i p h => by rcases declaredV _ _ _ h with h | ⟨h, _⟩ | ⟨h, _⟩ <;> simp [Sample.id] at h)
  obtain ⟨t', h1', -, h2'⟩ := h 30 (.ident (id 3 go!"F" 30)) [] [] (id 3 go!"F" 30) (List.mem_singleton.2 rfl) (List.mem_singleton.2 rfl) (.inl rfl) (by simp)
    (by simp) (.ident _)
    (fun i p i' p' h h' => by
      rcases declaredV _ _ _ h with h | ⟨h, _⟩ | ⟨_, rfl⟩ <;> rcases declaredV _ _ _ h' with h' | ⟨h', _⟩ | ⟨_, rfl⟩ <;> first | rfl | omega)
    (.inl rfl)
  rw [h1] at h1'
  cases h1'
  exact ⟨t, h1, h2'.2 rfl, fun h => absurd (h2.1 h) (by decide)⟩

end ParenSample

/-! ## Anonymous types -/

/-- **C25** (paths): a field `x` of an anonymous struct or interface type reached from a named field through maps, arrays,
slices and pointers is declared below the owner's path, with the key of the anonymous type in between. -/
theorem C25_anonymous_field_path (key : Node → Str) (isI : Bool) (t : Node) (o : List Descriptor)
    (pos pos' : Nat) (names names' : List Ident) (typ typ' lit : Node) (d c d' c' : Str) (x : Ident)
    (hf : HasField t (.field pos names typ d c)) (hne : names ≠ []) (hr : Reaches typ lit) (hk : key lit ≠ [])
    (hx : HasField lit (.field pos' names' typ' d' c')) (hn : x ∈ names') :
    Member key isI t o x (o ++ [⟨key lit, .typ⟩, ⟨x.name, .term⟩]) := by
  have h := Member.anon hf hne hr hk (.named (key := key) (isI := isI) (o := o ++ [⟨key lit, .typ⟩]) hx hn)
  simpa using h

/-- **C25** (sharing): below the same owner, the field symbols of two anonymous types coincide iff the fields have the
same name and the types have the same key. -/
theorem C25_sharing (env : PkgEnv) (o : List Descriptor) (k₁ k₂ n₁ n₂ : Str)
    (hm : fieldOk env.module.path) (hv : fieldOk env.module.version) :
    env.fromDescriptors (o ++ [⟨k₁, .typ⟩, ⟨n₁, .term⟩]) = env.fromDescriptors (o ++ [⟨k₂, .typ⟩, ⟨n₂, .term⟩]) ↔
      k₁ = k₂ ∧ n₁ = n₂ := by
  constructor
  · intro h
    have := (C01_symbol_injective _ _ _ _ _ _ hm hv hm hv h).2.2
    simpa using this
  · rintro ⟨rfl, rfl⟩; rfl

/-- The anonymous struct of the sample file meets the hypotheses. -/
example : Reaches (.mapT (Sample.ty go!"string" 1) (.arrayT [] (.star (.structT [.field 30 [Sample.id 5 go!"Y" 30] (Sample.ty go!"int" 32) [] []]))))
    (.structT [.field 30 [Sample.id 5 go!"Y" 30] (Sample.ty go!"int" 32) [] []]) :=
  .mapValue (.array (.star (.struct _)))

/-! ## Everything is recorded below the package -/

/-- The collecting pass registers entries, all with symbols of the package. -/
theorem visitPackageSyntax_owned (env : PkgEnv) (files : List Node) (t t' : Table) (h : visitPackageSyntax env files t = some t') :
    ∃ rs, t' = t.setAll rs ∧ ∀ e ∈ rs, ∃ ds, ds ≠ [] ∧
      e.2.symbol = formatSymbol ⟨env.module.path, env.module.version⟩ (⟨env.pkgPath, .nspace⟩ :: ds) := by
  have hg : ∀ (f : VState → VState), Grows env f → ∀ t : Table, ∃ rs,
      (f ⟨newScope env.pkgPath, t, none, []⟩).table = t.setAll rs ∧ ∀ e ∈ rs, ∃ ds, ds ≠ [] ∧
      e.2.symbol = formatSymbol ⟨env.module.path, env.module.version⟩ (⟨env.pkgPath, .nspace⟩ :: ds) := by
    intro f hf t
    obtain ⟨x, rs, _, h2, h3⟩ := hf ⟨newScope env.pkgPath, t, none, []⟩
    refine ⟨rs, h2, ?_⟩
    intro e he
    obtain ⟨ds, par, i, hne, he⟩ := h3 e he
    exact ⟨ds, hne, by rw [he]; rfl⟩
  have hdecl : ∀ d (t t' : Table), visitDecl env d t = some t' → ∃ rs, t' = t.setAll rs ∧ ∀ e ∈ rs, ∃ ds, ds ≠ [] ∧
      e.2.symbol = formatSymbol ⟨env.module.path, env.module.version⟩ (⟨env.pkgPath, .nspace⟩ :: ds) := by
    intro d t t' h
    have hid : some t = some t' → ∃ rs, t' = t.setAll rs ∧ ∀ e ∈ rs, ∃ ds, ds ≠ [] ∧
      e.2.symbol = formatSymbol ⟨env.module.path, env.module.version⟩ (⟨env.pkgPath, .nspace⟩ :: ds) := by
      intro h; injection h with h; exact ⟨[], by simp [h], by simp⟩
    cases d with
    | genDecl tok specs doc =>
      cases tok with
      | imp => exact hid h
      | typ => exact hid h
      | other => simp [visitDecl] at h
      | var =>
        obtain ⟨rs, h1, h2⟩ := hg _ (varWalk_grows env (.genDecl .var specs doc)) t
        simp only [visitDecl, Option.some.injEq] at h
        exact ⟨rs, by rw [← h, h1], h2⟩
      | const =>
        obtain ⟨rs, h1, h2⟩ := hg _ (varWalk_grows env (.genDecl .const specs doc)) t
        simp only [visitDecl, Option.some.injEq] at h
        exact ⟨rs, by rw [← h, h1], h2⟩
    | funcDecl a b c d e f g =>
      obtain ⟨rs, h1, h2⟩ := hg _ (funcWalk_grows env (.funcDecl a b c d e f g)) t
      simp only [visitDecl, Option.some.injEq] at h
      exact ⟨rs, by rw [← h, h1], h2⟩
    | _ => exact hid h
  have trans : ∀ t₁ t₂ t₃ : Table,
      (∃ rs, t₂ = t₁.setAll rs ∧ ∀ e ∈ rs, ∃ ds, ds ≠ [] ∧
        e.2.symbol = formatSymbol ⟨env.module.path, env.module.version⟩ (⟨env.pkgPath, .nspace⟩ :: ds)) →
      (∃ rs, t₃ = t₂.setAll rs ∧ ∀ e ∈ rs, ∃ ds, ds ≠ [] ∧
        e.2.symbol = formatSymbol ⟨env.module.path, env.module.version⟩ (⟨env.pkgPath, .nspace⟩ :: ds)) →
      (∃ rs, t₃ = t₁.setAll rs ∧ ∀ e ∈ rs, ∃ ds, ds ≠ [] ∧
        e.2.symbol = formatSymbol ⟨env.module.path, env.module.version⟩ (⟨env.pkgPath, .nspace⟩ :: ds)) := by
    rintro t₁ _ _ ⟨rs, rfl, h⟩ ⟨ss, rfl, k⟩
    refine ⟨rs ++ ss, (Table.setAll_append _ _ _).symm, ?_⟩
    intro e he
    rcases List.mem_append.1 he with he | he
    · exact h e he
    · exact k e he
  have hdecls : ∀ ds (t t' : Table), visitDecls env ds t = some t' → ∃ rs, t' = t.setAll rs ∧ ∀ e ∈ rs, ∃ ds, ds ≠ [] ∧
      e.2.symbol = formatSymbol ⟨env.module.path, env.module.version⟩ (⟨env.pkgPath, .nspace⟩ :: ds) := by
    intro ds
    induction ds with
    | nil => intro t t' h; simp [visitDecls] at h; exact ⟨[], by simp [h], by simp⟩
    | cons d ds ih =>
      intro t t' h
      simp only [visitDecls] at h
      cases hd : visitDecl env d t with
      | none => rw [hd] at h; simp at h
      | some t₁ => rw [hd] at h; exact trans _ _ _ (hdecl d t t₁ hd) (ih t₁ t' h)
  have hsyn : ∀ f (t t' : Table), visitSyntax env f t = some t' → ∃ rs, t' = t.setAll rs ∧ ∀ e ∈ rs, ∃ ds, ds ≠ [] ∧
      e.2.symbol = formatSymbol ⟨env.module.path, env.module.version⟩ (⟨env.pkgPath, .nspace⟩ :: ds) := by
    intro f t t' h
    cases f with
    | file name ds => exact trans _ _ _ (hg _ (typeDecls_grows env ds) t) (hdecls ds _ t' h)
    | _ => simp [visitSyntax] at h; exact ⟨[], by simp [h], by simp⟩
  have hpkg : ∀ fs (t t' : Table), visitPackageSyntax env fs t = some t' → ∃ rs, t' = t.setAll rs ∧ ∀ e ∈ rs, ∃ ds, ds ≠ [] ∧
      e.2.symbol = formatSymbol ⟨env.module.path, env.module.version⟩ (⟨env.pkgPath, .nspace⟩ :: ds) := by
    intro ds
    induction ds with
    | nil => intro t t' h; simp [visitPackageSyntax] at h; exact ⟨[], by simp [h], by simp⟩
    | cons d ds ih =>
      intro t t' h
      simp only [visitPackageSyntax] at h
      cases hd : visitSyntax env d t with
      | none => rw [hd] at h; simp at h
      | some t₁ => rw [hd] at h; exact trans _ _ _ (hsyn d t t₁ hd) (ih t₁ t' h)
  exact hpkg files t t' h

/-- **C70**: whatever the syntax (also where scopes leak), every entry the collecting pass adds for a package carries
a symbol that starts with the package's own module path and version and whose first descriptor is the
package path. -/
theorem C70_symbols_of_own_package (env : PkgEnv) (files : List Node) (t t' : Table)
    (h : visitPackageSyntax env files t = some t') (q : Nat) (info : SymInfo) (hq : t'.get q = some info) :
    t.get q = some info ∨ ∃ ds, ds ≠ [] ∧
      info.symbol = formatSymbol ⟨env.module.path, env.module.version⟩ (⟨env.pkgPath, .nspace⟩ :: ds) := by
  obtain ⟨rs, rfl, hrs⟩ := visitPackageSyntax_owned env files t t' h
  rcases Table.get_setAll_mem rs t q info hq with h | h
  · exact .inl h
  · exact .inr (hrs _ h)

/-- Non-vacuity of C70: the sample package is collected and has eleven entries. -/
example : ∃ t', visitPackageSyntax Sample.env [Sample.file] [] = some t' ∧ t'.length = 11 := by
  have h := Sample.collected
  cases hv : visitPackageSyntax Sample.env [Sample.file] [] with
  | none => rw [hv] at h; simp at h
  | some t' =>
    rw [hv] at h
    simp only [Option.map_some, Option.some.injEq] at h
    refine ⟨t', rfl, ?_⟩
    have := congrArg List.length h
    simpa using this

end Verif
