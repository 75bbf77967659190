import Verif.Props.CrossModule
import Verif.Props.Places
import Verif.Spec.EntityDecl
import Verif.Lemmas.CheckSyntax
/-! # C04: when exactly dependency references and definitions agree -/
namespace Verif
open Spec

theorem locateOwner_first {scope before after : List ObjData} {first : ObjData} {id : Nat} (hs : scope = before ++ first :: after)
    (hf : ListsField first id) (hb : ∀ o' ∈ before, ¬ ListsField o' id) : locateOwner scope id = some first := by
  subst hs
  unfold locateOwner
  rw [List.find?_append, List.find?_eq_none.2, Option.none_or, List.find?_cons]
  · obtain ⟨ids, hc, hm⟩ := hf
    simp [hc, hm]
  · intro o' ho' h
    refine hb o' ho' ?_
    split at h
    · rename_i ids hcls
      exact ⟨ids, hcls, by simpa using h⟩
    · simp at h

/-- The path of the definition, and the comparison with the path made from type information. -/
theorem entityDecl_path (scopes : Scopes) (env : PkgEnv) (decls : List Node) (n : Ident) (o : ObjData) (ok : Prop)
    (h : EntityDecl scopes (specScopeName env.position) env.pkgPath decls n o ok) :
    ∃ ds, DeclsDeclare env decls n ds n.pos ∧ ds ≠ [] ∧ (ds = describe scopes env.pkgPath o ↔ ok) := by
  cases h with
  | typ hd hs hc hn =>
    refine ⟨_, .typ ⟨_, _, _, _, hd, hs, .name _ _ _ _⟩, by simp, ?_⟩
    simp only [describe, hc, hn]
  | @value tok pre post doc pos names typ vs d c _ _ hd ht hm hc hn =>
    refine ⟨_, .var hd ht (.decl ht rfl (.name hm)), by simp, ?_⟩
    have : describe scopes env.pkgPath o = [⟨env.pkgPath, .nspace⟩, ⟨n.name, .term⟩] := by
      rcases hc with hc | hc <;> simp [describe, hc, hn]
    rw [this]
    constructor
    · intro h
      have := congrArg List.length h
      simp only [List.length_append, List.length_cons, List.length_nil] at this
      exact List.eq_nil_of_length_eq_zero (by omega)
    · intro h; rw [h]; rfl
  | func hd hc hn =>
    refine ⟨_, .func hd (.name .func), by simp, ?_⟩
    simp [describe, hc, hn]
  | method hd hb hc hr hbne hn =>
    refine ⟨_, .func hd (.name (.method hb)), by simp, ?_⟩
    have := nameType_of_recvBase hr
    simp [describe, hc, hn, this, hbne]
  | @field tok specs doc t tps fs d pos names ft fd fc _ _ before first after hd hs hf hm hc hn hsc hfi hbe =>
    refine ⟨[⟨env.pkgPath, .nspace⟩, ⟨t.name, .typ⟩, ⟨n.name, .term⟩], .typ ⟨_, _, _, _, hd, hs, .member ?_⟩, by simp, ?_⟩
    · rcases hm with hm | ⟨rfl, he⟩
      · exact .named (.struct hf) hm
      · exact .embedded rfl (.struct hf) he
    · simp [describe, hc, locateOwner_first hsc hfi hbe, hn, eq_comm]
  | @ifaceMethod tok specs doc t tps ms d pos names ft fd fc _ _ r hd hs hf hm hc hn =>
    refine ⟨[⟨env.pkgPath, .nspace⟩, ⟨t.name, .typ⟩, ⟨n.name, .term⟩], .typ ⟨_, _, _, _, hd, hs, .member (.named (.iface hf) hm)⟩, by simp, ?_⟩
    simp only [describe, hc, iff_false]
    split <;> simp

/-- **C04**, exactly: for every package-level type, constant, variable, function, method (also of an interface type) and field of a package-level struct type,
after any coherent history of composition requests, the symbol that a dependent module composes from type information alone equals the symbol recorded at
the declaring identifier *if and only if* the condition given for it by `EntityDecl` holds: always for types and functions; for variables and constants
if nothing has been left open (C22); for methods if the receiver is written with the name of its type; for fields if no type of the package with a smaller
name is derived from the struct type; never for methods of interface types. -/
theorem C04_exact (scopes : Scopes) (env : PkgEnv) (files : List Node) (hok : FilesOk files) (hplaces : (placesList files).Nodup)
    (hspecs : ∀ name decls, .file name decls ∈ files → ValueSpecs decls) (fname : Ident) (decls : List Node) (hf : .file fname decls ∈ files)
    (n : Ident) (o : ObjData) (ok : Prop) (ho : EntityDecl scopes (specScopeName env.position) env.pkgPath decls n o ok) (hpkg : o.pkg = some env.pkgPath)
    (hm : fieldOk env.module.path) (hv : fieldOk env.module.version)
    (path version : Str) (rs : List Request)
    (hc : Coherent (rs ++ [(some (some env.module), some (Obj.plain o))]))
    (hp : ∀ r ∈ rs, ∀ o', r.2 = some o' → entityOf o' = entityOf (Obj.plain o) → r.1 = some (some env.module)) :
    ∃ t' sym, visitPackageSyntax env files [] = some t' ∧ t'.getSymbol n.pos = some sym ∧
      ((((newComposer path version).run scopes rs).1.compose scopes (some (some env.module)) (some (Obj.plain o))).2 = sym ↔ ok) := by
  obtain ⟨t', h1, h2⟩ := C99_own_symbol env files hplaces hspecs hok
  obtain ⟨ds, hd, hne, hiff⟩ := entityDecl_path scopes env decls n o ok ho
  refine ⟨t', _, h1, h2 n ds n.pos ⟨fname, decls, hf, hd⟩, ?_⟩
  rw [C03_history_independent scopes path version rs _ _ hc hp, ← hiff]
  have hcanon : (Obj.plain o).canon = o := by
    unfold Obj.canon Obj.plain; cases o.cls <;> rfl
  have hself : (Obj.plain o).self = o := rfl
  simp only [Composer.compose, hself, hpkg, hcanon, newComposer, List.lookup_nil]
  by_cases he : describe scopes env.pkgPath o = []
  · rw [if_pos he]
    constructor
    · intro h
      have := congrArg List.length h
      simp [PkgEnv.fromDescriptors, formatSymbol] at this
    · intro h; exact absurd (h.trans he) hne
  · rw [if_neg he]
    constructor
    · intro h
      exact (C01_symbol_injective _ _ _ _ _ _ hm hv hm hv h).2.2.symm
    · intro h; rw [h]; rfl

namespace CrossSample
open Sample

/-!
```go
package p
type I interface { M() }
type A T
type T struct { X int }
type B = T
func (b B) Do() {}
func (t T) Did() {}
var ( a (int); c int )
```
-/

def decls : List Node :=
  [ .genDecl .typ [.typeSpec (id 1 go!"I" 10) [] (.ifaceT [.field 20 [id 2 go!"M" 20] (.funcT [] [] []) [] []]) []] [],
    .genDecl .typ [.typeSpec (id 3 go!"A" 30) [] (ty go!"T" 32) []] [],
    .genDecl .typ [.typeSpec (id 4 go!"T" 40) [] (.structT [.field 50 [id 5 go!"X" 50] (ty go!"int" 52) [] []]) []] [],
    .genDecl .typ [.typeSpec (id 6 go!"B" 60) [] (ty go!"T" 64) []] [],
    .funcDecl [.field 70 [id 7 go!"b" 70] (ty go!"B" 72) [] []] (id 8 go!"Do" 74) (.funcT [] [] []) [.block []] 68 79 [],
    .funcDecl [.field 82 [id 9 go!"t" 82] (ty go!"T" 84) [] []] (id 10 go!"Did" 86) (.funcT [] [] []) [.block []] 80 89 [],
    .genDecl .var [.valueSpec 90 [id 11 go!"a" 90] [.paren (ty go!"int" 93)] [] [] [], .valueSpec 100 [id 12 go!"c" 100] [ty go!"int" 102] [] [] []] [] ]

def file : Node := .file (id 0 go!"p" 1) decls

theorem places : (placesList [file]).Nodup := by decide +kernel

theorem specs (name : Ident) (ds : List Node) (h : .file name ds ∈ [file]) : ValueSpecs ds := by
  simp only [file, List.mem_singleton, Node.file.injEq] at h
  obtain ⟨rfl, rfl⟩ := h
  intro tok specs doc hd ht s hs
  simp only [decls, List.mem_cons, List.not_mem_nil, or_false, Node.genDecl.injEq, reduceCtorEq] at hd
  rcases hd with ⟨rfl, _⟩ | ⟨rfl, _⟩ | ⟨rfl, _⟩ | ⟨rfl, _⟩ | h | h | ⟨rfl, rfl, rfl⟩
  all_goals first
    | (simp at ht; done)
    | (exact h.elim)
    | (simp only [List.mem_cons, List.not_mem_nil, or_false] at hs
       rcases hs with rfl | rfl <;> exact ⟨_, _, _, _, _, _, rfl⟩)

theorem filesOk : FilesOk [file] := by
  intro name ds h d hd
  simp only [file, List.mem_singleton, Node.file.injEq] at h
  obtain ⟨rfl, rfl⟩ := h
  simp only [decls, List.mem_cons, List.not_mem_nil, or_false] at hd
  rcases hd with rfl | rfl | rfl | rfl | rfl | rfl | rfl
  · exact ⟨by simp, by simp⟩
  · exact ⟨by simp, by simp⟩
  · exact ⟨by simp, by simp⟩
  · exact ⟨by simp, by simp⟩
  · exact ⟨⟨_, .method (.ident _)⟩, .funcT (by simp)⟩
  · exact ⟨⟨_, .method (.ident _)⟩, .funcT (by simp)⟩
  · exact ⟨by simp, fun _ => parsedTree _ (by decide +kernel)⟩

/-- The types of the package scope: `A` and `T` have the same field object 20. -/
def scope : List ObjData :=
  [⟨2, .typeName (.named (.struct [20])), go!"A", some go!"m/p", 30⟩, ⟨1, .typeName (.named (.struct [20])), go!"T", some go!"m/p", 40⟩]

/-- `C04_exact` for an entity of the sample, with no history. -/
theorem exact (n : Ident) (o : ObjData) (ok : Prop) (h : EntityDecl (fun _ => scope) (specScopeName env.position) go!"m/p" decls n o ok) (hp : o.pkg = some go!"m/p") :
    ∃ t' sym, visitPackageSyntax env [file] [] = some t' ∧ t'.getSymbol n.pos = some sym ∧
      (((newComposer go!"x" go!"y").compose (fun _ => scope) (some (some env.module)) (some (Obj.plain o))).2 = sym ↔ ok) :=
  C04_exact (fun _ => scope) env [file] filesOk places specs _ decls (List.mem_singleton.2 rfl) n o ok h hp (by decide) (by decide) go!"x" go!"y" []
    (by intro r₁ h₁ r₂ h₂ o₁ o₂ e₁ e₂ _
        simp only [List.nil_append, List.mem_singleton] at h₁ h₂
        subst h₁ h₂
        cases e₁; cases e₂; exact ⟨rfl, rfl⟩) (by simp)

/-- the method of the interface -/
example := exact (id 2 go!"M" 20) ⟨7, .func (some (some (.named go!"I" true))), go!"M", some go!"m/p", 20⟩ False
  (.ifaceMethod (tok := .typ) (specs := [.typeSpec (id 1 go!"I" 10) [] (.ifaceT [.field 20 [id 2 go!"M" 20] (.funcT [] [] []) [] []]) []]) (doc := [])
    (by simp [decls]) (List.mem_singleton.2 rfl) (List.mem_singleton.2 rfl) (List.mem_singleton.2 rfl) rfl rfl) rfl

/-- the field: the first type with it is `A` -/
example := exact (id 5 go!"X" 50) ⟨20, .var true, go!"X", some go!"m/p", 50⟩ (go!"A" = go!"T")
  (.field (tok := .typ) (specs := [.typeSpec (id 4 go!"T" 40) [] (.structT [.field 50 [id 5 go!"X" 50] (ty go!"int" 52) [] []]) []]) (doc := [])
    (t := id 4 go!"T" 40) (before := []) (first := ⟨2, .typeName (.named (.struct [20])), go!"A", some go!"m/p", 30⟩)
    (by simp [decls]) (List.mem_singleton.2 rfl) (List.mem_singleton.2 rfl) (.inl (List.mem_singleton.2 rfl)) rfl rfl rfl ⟨[20], rfl, by simp⟩ (by simp)) rfl

/-- the method with the alias -/
example := exact (id 8 go!"Do" 74) ⟨8, .func (some (some (.alias (.named go!"T" false)))), go!"Do", some go!"m/p", 74⟩ (go!"B" = go!"T")
  (.method (rest := []) (pos := 70) (names := [id 7 go!"b" 70]) (typ := ty go!"B" 72) (d := []) (c := []) (ft := .funcT [] [] []) (body := [.block []]) (a := 68) (b := 79) (fd := [])
    (by simp [decls]) (.ident _) rfl (.alias (.named _ _)) (by decide) rfl) rfl

/-- the method without it -/
example := exact (id 10 go!"Did" 86) ⟨9, .func (some (some (.named go!"T" false))), go!"Did", some go!"m/p", 86⟩ (go!"T" = go!"T")
  (.method (rest := []) (pos := 82) (names := [id 9 go!"t" 82]) (typ := ty go!"T" 84) (d := []) (c := []) (ft := .funcT [] [] []) (body := [.block []]) (a := 80) (b := 89) (fd := [])
    (by simp [decls]) (.ident _) rfl (.named _ _) (by decide) rfl) rfl

/-- the variable after the parenthesised type -/
example := exact (id 12 go!"c" 100) ⟨10, .var false, go!"c", some go!"m/p", 100⟩ _
  (.value (tok := .var) (pre := [.valueSpec 90 [id 11 go!"a" 90] [.paren (ty go!"int" 93)] [] [] []]) (post := []) (doc := []) (pos := 100) (names := [id 12 go!"c" 100])
    (typ := [ty go!"int" 102]) (vs := []) (d := []) (c := []) (by simp [decls]) (.inl rfl) (List.mem_singleton.2 rfl) (.inl rfl) rfl) rfl

end CrossSample

end Verif
