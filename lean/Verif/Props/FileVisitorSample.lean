import Verif.Props.FileVisitor
/-!
# A concrete file meets the hypotheses of the file-visitor theorems

```go
package p
import "fmt"
// Deprecated: use G.
func F() { x := 1; fmt.Println(x); F() }
```
-/
namespace Verif.FileSample
open Verif Spec

def modP : ModIdent := ⟨go!"m", go!"v1"⟩
def objF : Obj := .plain ⟨1, .func (some none), go!"F", some go!"m/p", 40⟩
def objX : Obj := .plain ⟨2, .var false, go!"x", some go!"m/p", 50⟩
def objFmt : Obj := .plain ⟨3, .pkgName go!"fmt", go!"fmt", some go!"m/p", 20⟩
def objPrintln : Obj := .plain ⟨4, .func (some none), go!"Println", some go!"fmt", 900⟩

def infoF : SymInfo := ⟨go!"scip-go gomod m v1 `m/p`/F().", .function, go!"F", [go!"Deprecated: use G."], some go!"func F()"⟩

def table : Table := [(40, infoF)]

def global : Global :=
  { symbols := [(go!"m/p", ⟨some modP, table⟩), (go!"fmt", ⟨some ⟨go!"std", go!"go1"⟩, []⟩)]
    pkgSymbols := [(go!"m/p", go!"scip-go gomod m v1 `m/p`/"), (go!"fmt", go!"scip-go gomod std go1 fmt/")]
    composer := ⟨[], [], []⟩
    skipped := [] }

def env : FileEnv :=
  { pkg :=
      { pkgPath := go!"m/p", module := modP
        defs := fun u => if u = 1 then some objF else if u = 2 then some objX else none
        uses := fun u => if u = 3 then some objFmt else if u = 4 then some objPrintln
          else if u = 5 then some objX else if u = 6 then some objF else none
        anonKey := fun _ => [], signature := fun _ => []
        position := fun p => ⟨1, p % 1000 + 1⟩ }
    scopes := fun _ => []
    pkgTable := table
    implicits := []
    pkgNameOf := fun u => if u = 100 then some go!"fmt" else none
    imports := fun p => if p = go!"fmt" then some go!"fmt" else none }

def body : List Node :=
  [ .other [.ident ⟨2, go!"x", 50⟩, .other []],
    .other [.selector (.ident ⟨3, go!"fmt", 60⟩) ⟨4, go!"Println", 64⟩, .ident ⟨5, go!"x", 70⟩],
    .other [.ident ⟨6, go!"F", 80⟩] ]

def decls : List Node :=
  [ .genDecl .imp [.importSpec 100 none 20] [],
    .funcDecl [] ⟨1, go!"F", 40⟩ (.funcT [] [] []) [.block body] 35 90 go!"Deprecated: use G." ]

def pkgOcc : Occurrence := ⟨[0, 8, 9], go!"scip-go gomod m v1 `m/p`/", true, none, false⟩

def start : FState := newFileVisitor pkgOcc global

/-- The occurrences of the document: package clause, import path, the deprecated function with its extent, the local,
the package name, the function of the other package (composed symbol), the local again, and the deprecated reference. -/
theorem occurrences : (fileWalk env (.file ⟨0, go!"p", 8⟩ decls) start).map (·.occs) = some
    [ pkgOcc,
      ⟨[0, 21, 24], go!"scip-go gomod std go1 fmt/", false, none, false⟩,
      ⟨[0, 40, 41], infoF.symbol, true, some [0, 35, 90], true⟩,
      ⟨[0, 50, 51], go!"local 0", true, none, false⟩,
      ⟨[0, 60, 63], go!"scip-go gomod std go1 fmt/", false, none, false⟩,
      ⟨[0, 64, 71], go!"scip-go gomod std go1 fmt/Println().", false, none, false⟩,
      ⟨[0, 70, 71], go!"local 0", false, none, false⟩,
      ⟨[0, 80, 81], infoF.symbol, false, none, true⟩ ] := by decide +kernel

theorem ff_leaf {n : Node} (h : ∀ r nm t b p e d, n ≠ .funcDecl r nm t b p e d) (hc : children n = []) : FuncFree n :=
  .mk h (by rw [hc]; simp)

theorem parsed : ParsedFile env (fun p => (global.getPkgSymbol p).isSome) decls where
  top_level := by
    intro d hd
    simp only [decls, List.mem_cons, List.not_mem_nil, or_false] at hd
    rcases hd with rfl | rfl
    · left
      refine .mk (by simp) ?_
      intro c hc
      simp only [children, List.mem_cons, List.not_mem_nil, or_false] at hc
      subst hc
      exact ff_leaf (by simp) rfl
    · right
      refine ⟨_, _, _, _, _, _, _, rfl, by simp, ff_leaf (by simp) rfl, ?_⟩
      intro c hc
      simp only [List.mem_cons, List.not_mem_nil, or_false] at hc
      subst hc
      refine .mk (by simp) ?_
      intro c hc
      simp only [children, body, List.mem_cons, List.not_mem_nil, or_false] at hc
      rcases hc with rfl | rfl | rfl
      all_goals
        refine .mk (by simp) ?_
        intro c hc
        simp only [children, List.mem_cons, List.not_mem_nil, or_false] at hc
        first
          | (rcases hc with rfl | rfl
             · first
                 | exact ff_leaf (by simp) rfl
                 | (refine .mk (by simp) ?_
                    intro c hc
                    simp only [children, List.mem_cons, List.not_mem_nil, or_false] at hc
                    rcases hc with rfl | rfl <;> exact ff_leaf (by simp) rfl)
             · exact ff_leaf (by simp) rfl)
          | (subst hc; exact ff_leaf (by simp) rfl)
  distinct := by decide +kernel

theorem wf (o : Obj) (h : o ∈ [objF, objX, objPrintln]) : WellFormedObj o := by
  simp only [List.mem_cons, List.not_mem_nil, or_false] at h
  rcases h with rfl | rfl | rfl
  all_goals
    exact ⟨by decide, by intro p hp; simp only [objF, objX, objPrintln, Obj.plain, Option.some.injEq] at hp; subst hp; decide,
      by simp [objF, objX, objPrintln, Obj.plain], by simp [objF, objX, objPrintln, Obj.plain]⟩

theorem typed : TypedFile env (fileEvents env global decls) [objF, objX, objPrintln] global where
  table := by intro pos; rfl
  fresh := ⟨rfl, rfl⟩
  looked_up := by
    intro i hi r hr
    have hi : i ∈ [(⟨1, go!"F", 40⟩ : Ident), ⟨2, go!"x", 50⟩, ⟨4, go!"Println", 64⟩, ⟨5, go!"x", 70⟩, ⟨6, go!"F", 80⟩] := hi
    simp only [List.mem_cons, List.not_mem_nil, or_false] at hi
    rcases hi with rfl | rfl | rfl | rfl | rfl <;> simp [env] at hr <;> subst hr <;> simp
  coherent := by unfold CoherentObjs; decide +kernel
  objects := wf
  unquoted := by
    intro o ho
    have : o ∈ [objF, objX, objFmt, objPrintln] := by
      rcases ho with ⟨u, h | h⟩ | h
      · simp only [env] at h
        split at h
        · simp at h; subst h; simp
        · split at h <;> simp at h; subst h; simp
      · simp only [env] at h
        repeat' split at h
        all_goals simp at h
        all_goals subst h; simp
      · simp [env] at h
    simp only [List.mem_cons, List.not_mem_nil, or_false] at this
    rcases this with rfl | rfl | rfl | rfl <;> decide
  positions := by
    intro p
    have := Nat.mod_lt p (show 1000 > 0 by decide)
    refine ⟨Nat.le_refl _, ?_, ?_, ?_⟩ <;> simp only [env] <;> omega
  imports := by
    intro p imported
    have := Nat.mod_lt p (show 1000 > 0 by decide)
    by_cases h : imported = go!"fmt"
    · left; subst h; simp only [env]; simp; omega
    · right; intro q; simp only [env]; split
      · simp; exact fun he => h he.symm
      · simp
  import_names := by
    intro uid n p hm
    have hm : Event.imp uid (some n) p ∈ fileEvents env global decls := hm
    simp [fileEvents, decls, body, traverseList, traverse, packageQualifier, env, objFmt, Obj.plain] at hm

theorem globalSymbols : GlobalSymbols global where
  tables := by
    intro path r pos info hr hi
    simp only [global, List.lookup] at hr
    split at hr
    · simp at hr; subst hr
      simp only [Table.get, table, List.lookup] at hi
      split at hi
      · simp at hi; subst hi; decide
      · simp at hi
    · split at hr
      · simp at hr; subst hr; simp [Table.get] at hi
      · simp at hr
  packages := by
    intro path s hs
    simp only [Global.getPkgSymbol, global, List.lookup] at hs
    split at hs
    · simp at hs; subst hs; decide
    · split at hs
      · simp at hs; subst hs; decide
      · simp at hs
  fresh := rfl

/-- The sample file satisfies the hypothesis of C09-C17, even after other lookups. -/
theorem visited : ∃ st, Visited env global [objF, objX, objPrintln] decls pkgOcc st ∧ st.occs.length = 8 := by
  have hocc : ((fileWalk env (.file ⟨0, go!"p", 8⟩ decls) start).map (·.occs)) ≠ none := by
    rw [occurrences]; simp
  cases hw : fileWalk env (.file ⟨0, go!"p", 8⟩ decls) start with
  | none => rw [hw] at hocc; simp at hocc
  | some st =>
    refine ⟨st, ⟨parsed, typed, ⟨_, _, .start, hw⟩⟩, ?_⟩
    have := occurrences
    rw [hw] at this
    simp only [Option.map_some, Option.some.injEq] at this
    rw [this]; rfl

example : ∃ st, fileWalk env (.file ⟨0, go!"p", 8⟩ decls)
    (newFileVisitor pkgOcc (global.lookups env.scopes [objPrintln, objF]).1) = some st :=
  C14_no_crash env global _ _ _ decls pkgOcc (Asked.start.lookups _ (by decide)) parsed typed (by decide +kernel)
    (by
      intro i hi d hd
      have hi : i ∈ [(⟨1, go!"F", 40⟩ : Ident), ⟨2, go!"x", 50⟩, ⟨4, go!"Println", 64⟩, ⟨5, go!"x", 70⟩, ⟨6, go!"F", 80⟩] := hi
      simp only [List.mem_cons, List.not_mem_nil, or_false] at hi
      rcases hi with rfl | rfl | rfl | rfl | rfl <;> simp [env] at hd <;> subst hd <;> rfl)
    (by
      intro i hi d hd
      have hi : i ∈ [(⟨1, go!"F", 40⟩ : Ident), ⟨2, go!"x", 50⟩, ⟨4, go!"Println", 64⟩, ⟨5, go!"x", 70⟩, ⟨6, go!"F", 80⟩] := hi
      simp only [List.mem_cons, List.not_mem_nil, or_false] at hi
      rcases hi with rfl | rfl | rfl | rfl | rfl <;> simp [env] at hd <;> subst hd <;> simp [objF, objX, objPrintln, Obj.plain])

/-- In code that does not type-check, a package name outside a selector crashes the visitor: the last hypothesis of C14
cannot be dropped. -/
example : fileWalk env (.file ⟨0, go!"p", 8⟩ [.other [.ident ⟨3, go!"fmt", 60⟩]]) start = none := by rfl

end Verif.FileSample
