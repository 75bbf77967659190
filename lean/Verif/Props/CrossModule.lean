import Verif.Props.Visitors
import Verif.Props.Composer
import Verif.Spec.TypedDecl
/-! # C04: dependency references and definitions agree -/
namespace Verif
open Spec

theorem nameType_of_recvBase {r b} (h : RecvBase r b) : nameType r = b := by
  induction h with
  | named n b => rfl
  | alias _ ih => exact ih
  | pointer _ ih => exact ih

/-- The path under which an entity is declared is the path the composer derives from type information. -/
theorem typedDecl_path (scopes : Scopes) (env : PkgEnv) (decls : List Node) (n : Ident) (o : ObjData)
    (h : TypedDecl scopes env.pkgPath decls n o) :
    DeclsDeclare env decls n (describe scopes env.pkgPath o) n.pos ∧ describe scopes env.pkgPath o ≠ [] := by
  cases h with
  | typ hd hs hc hn =>
    simp only [describe, hc, hn]
    exact ⟨.typ ⟨_, _, _, _, hd, hs, .name _ _ _ _⟩, by simp⟩
  | value hd ht hpre hm hc hn =>
    have : describe scopes env.pkgPath o = [⟨env.pkgPath, .nspace⟩, ⟨n.name, .term⟩] := by
      rcases hc with hc | hc <;> simp [describe, hc, hn]
    rw [this]
    refine ⟨.var hd ht (.decl ht rfl ?_), by simp⟩
    rw [leftOpenList_nil _ hpre]
    exact .name hm
  | func hd hc hn =>
    simp only [describe, hc, hn]
    exact ⟨.func hd (.name .func), by simp⟩
  | method hd hb hbne hc hr hn =>
    have := nameType_of_recvBase hr
    simp only [describe, hc, hn, this, hbne, if_false]
    exact ⟨.func hd (.name (.method hb)), by simp⟩
  | @field tok specs doc t tps fs d pos names ft fd fc _ _ owner ids hd hs hf hm hc hn ho hon hoc hoi huniq =>
    have hl : ∃ ow, locateOwner (scopes env.pkgPath) o.id = some ow ∧ ow.name = t.name := by
      unfold locateOwner
      cases hfind : (scopes env.pkgPath).find? (fun o' => match o'.cls with
          | .typeName (.named (.struct fs)) => fs.contains o.id
          | _ => false) with
      | none =>
        rw [List.find?_eq_none] at hfind
        have := hfind owner ho
        simp [hoc, hoi] at this
      | some ow =>
        refine ⟨ow, rfl, ?_⟩
        have hmem := List.mem_of_find?_eq_some hfind
        have hp := List.find?_some hfind
        split at hp
        · rename_i ids' hcls
          exact huniq ow hmem ids' hcls (by simpa using hp)
        · simp at hp
    obtain ⟨ow, hl, hown⟩ := hl
    simp only [describe, hc, hl, hown, hn]
    refine ⟨.typ ⟨_, _, _, _, hd, hs, .member ?_⟩, by simp⟩
    rcases hm with hm | ⟨rfl, he⟩
    · exact .named (.struct hf) hm
    · exact .embedded rfl (.struct hf) he

/-- **C04**, for types, constants, variables, functions, methods and struct fields: after any (coherent) history of
composition requests, the symbol that a dependent module composes from type information alone for the entity
`o` of package `env.pkgPath` in module `env.module` is the symbol the indexer records at the declaring
identifier when it indexes that module.
Missing for the full property: interface methods, fields of a struct type that another type is derived from, methods
with an alias receiver, and variables after a parenthesised type in the same declaration; for these it is false, see the counterexamples
below and `C22_paren_type_leaks_scope`. -/
theorem C04_reference_equals_definition_partial (scopes : Scopes) (env : PkgEnv) (files : List Node)
    (hok : FilesOk files) (fname : Ident) (decls : List Node) (hf : .file fname decls ∈ files)
    (n : Ident) (o : ObjData) (ho : TypedDecl scopes env.pkgPath decls n o) (hpkg : o.pkg = some env.pkgPath)
    (huniq : ∀ i p, PackageDeclares env files i p n.pos → p = describe scopes env.pkgPath o)
    (path version : Str) (rs : List Request)
    (hc : Coherent (rs ++ [(some (some env.module), some (Obj.plain o))]))
    (hp : ∀ r ∈ rs, ∀ o', r.2 = some o' → entityOf o' = entityOf (Obj.plain o) → r.1 = some (some env.module)) :
    ∃ t', visitPackageSyntax env files [] = some t' ∧
      t'.getSymbol n.pos = some
        (((newComposer path version).run scopes rs).1.compose scopes (some (some env.module)) (some (Obj.plain o))).2 := by
  obtain ⟨t', h1, h2⟩ := C21_package_collected env files hok []
  refine ⟨t', h1, ?_⟩
  obtain ⟨hd, hne⟩ := typedDecl_path scopes env decls n o ho
  rw [h2.exact n _ n.pos ⟨fname, decls, hf, hd⟩ huniq]
  rw [C03_history_independent scopes path version rs _ _ hc hp]
  have hcanon : (Obj.plain o).canon = o := by
    unfold Obj.canon Obj.plain; cases o.cls <;> rfl
  have hself : (Obj.plain o).self = o := rfl
  simp only [Composer.compose, hself, hpkg, hcanon, newComposer, List.lookup_nil, if_neg hne]
  rfl

/-- A method of the sample package meets the typing hypothesis. -/
example : TypedDecl (fun _ => []) go!"m/p" Sample.decls (Sample.id 11 go!"Do" 66)
    ⟨7, .func (some (some (.pointer (.named go!"T" false)))), go!"Do", some go!"m/p", 66⟩ :=
  .method (pos := 60) (names := [Sample.id 10 go!"t" 60]) (typ := .star (Sample.ty go!"T" 63)) (d := []) (c := [])
    (rest := []) (ft := .funcT [] [] []) (body := [.block []]) (a := 58) (b := 75) (fd := [])
    (base := go!"T") (by simp [Sample.decls, Sample.methodDo]) (.star (.ident _)) (by decide) rfl
    (.pointer (.named _ _)) rfl

/-- A field of the sample package meets the typing hypothesis. -/
example : TypedDecl (fun _ => [⟨1, .typeName (.named (.struct [20, 21])), go!"T", some go!"m/p", 10⟩]) go!"m/p" Sample.decls
    (Sample.id 2 go!"X" 12) ⟨20, .var true, go!"X", some go!"m/p", 12⟩ := by
  refine .field (tok := .typ) (doc := []) (t := Sample.id 1 go!"T" 10) (tps := []) (d := []) (pos := 12)
    (names := [Sample.id 2 go!"X" 12]) (ft := Sample.ty go!"int" 14) (fd := []) (fc := [])
    (owner := ⟨1, .typeName (.named (.struct [20, 21])), go!"T", some go!"m/p", 10⟩) (ids := [20, 21])
    (specs := _) (fs := _) (by simp only [Sample.decls, Sample.typeT]; exact List.mem_cons_self) List.mem_cons_self
    List.mem_cons_self (.inl (by simp)) rfl rfl (by simp) rfl rfl (by simp) ?_
  intro o' ho' _ _ _
  simp at ho'; subst ho'; rfl

/-- **C04 is false for interface methods**: the definition of method `M` of `type I interface { M() }` is recorded as
`m/p/I#M.` (a term), while the composer gives `m/p/I#M().` for a reference from another module. -/
theorem C04_interface_method_differs :
    let o : ObjData := ⟨7, .func (some (some (.named go!"I" true))), go!"M", some go!"m/p", 45⟩
    ((visitPackageSyntax Sample.env [Sample.file] []).map (fun t => t.getSymbol 45)) =
      some (some (formatSymbol ⟨go!"m", go!"v1"⟩ [⟨go!"m/p", .nspace⟩, ⟨go!"I", .typ⟩, ⟨go!"M", .term⟩])) ∧
    ((newComposer go!"x" go!"y").compose (fun _ => []) (some (some ⟨go!"m", go!"v1"⟩)) (some (Obj.plain o))).2 =
      formatSymbol ⟨go!"m", go!"v1"⟩ [⟨go!"m/p", .nspace⟩, ⟨go!"I", .typ⟩, ⟨go!"M", .method⟩] := by
  decide +kernel

/-- **C04 is false for fields of a type from which an alphabetically earlier type is derived**: with
`type A T` and `type T struct { X int }` (both have field object 20) a reference to `X` is composed as `m/p/A#X.`
although the definition is recorded as `m/p/T#X.`. -/
theorem C04_derived_struct_wrong_owner :
    let scope : List ObjData := [⟨2, .typeName (.named (.struct [20])), go!"A", some go!"m/p", 100⟩,
      ⟨1, .typeName (.named (.struct [20])), go!"T", some go!"m/p", 10⟩]
    let x : ObjData := ⟨20, .var true, go!"X", some go!"m/p", 12⟩
    ((visitPackageSyntax Sample.env [Sample.file] []).map (fun t => t.getSymbol 12)) =
      some (some (formatSymbol ⟨go!"m", go!"v1"⟩ [⟨go!"m/p", .nspace⟩, ⟨go!"T", .typ⟩, ⟨go!"X", .term⟩])) ∧
    ((newComposer go!"x" go!"y").compose (fun _ => scope) (some (some ⟨go!"m", go!"v1"⟩)) (some (Obj.plain x))).2 =
      formatSymbol ⟨go!"m", go!"v1"⟩ [⟨go!"m/p", .nspace⟩, ⟨go!"A", .typ⟩, ⟨go!"X", .term⟩] := by
  decide +kernel

/-- **C04 is false for alias receivers**: for `type B = T; func (b B) Do() {}` the definition is recorded under the
written name `B`, the reference under the type `T`. -/
theorem C04_alias_receiver_differs :
    let d : Node := .funcDecl [.field 60 [Sample.id 10 go!"b" 60] (Sample.ty go!"B" 63) [] []] (Sample.id 11 go!"Do" 66)
      (.funcT [] [] []) [.block []] 58 75 []
    let o : ObjData := ⟨7, .func (some (some (.alias (.named go!"T" false)))), go!"Do", some go!"m/p", 66⟩
    ((visitPackageSyntax Sample.env [.file (Sample.id 0 go!"p" 1) [d]] []).map (fun t => t.getSymbol 66)) =
      some (some (formatSymbol ⟨go!"m", go!"v1"⟩ [⟨go!"m/p", .nspace⟩, ⟨go!"B", .typ⟩, ⟨go!"Do", .method⟩])) ∧
    ((newComposer go!"x" go!"y").compose (fun _ => []) (some (some ⟨go!"m", go!"v1"⟩)) (some (Obj.plain o))).2 =
      formatSymbol ⟨go!"m", go!"v1"⟩ [⟨go!"m/p", .nspace⟩, ⟨go!"T", .typ⟩, ⟨go!"Do", .method⟩] := by
  decide +kernel

end Verif
