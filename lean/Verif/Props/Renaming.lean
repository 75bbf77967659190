import Verif.Lemmas.RenamingIndex
import Verif.Props.ProgramTypes
/-!
# C94: where files lie in the file set does not matter
-/
namespace Verif
open Spec Index Program Loader.Spec

variable {ρ : Renaming}

/-- C94, indexing: whatever the run with the new numbers writes, under whatever orders of iteration, the run with the old numbers writes
exactly the same under some orders. -/
theorem C94_index (D D' : Deps) (o : Index.Opts) (ord' : MapOrders) (w : Writer) (project project' all all' : GoMap Package)
    (hD : RenamedDeps ρ D D') (hp : RenamedMap ρ project project') (ha : RenamedMap ρ all all') (hv : ValidMapOrders ord') :
    ∃ ord, ValidMapOrders ord ∧ index D' o ord' w (.ok (project', all')) = index D o ord w (.ok (project, all)) := by
  obtain ⟨ord, h1, h2⟩ := exists_orders hp ha hv
  exact ⟨ord, h1, index_ren h2 hD hp o w⟩

theorem builtin_ren (o : Cmd.IndexOpts) : RenamedPackage ρ (builtinPackage o) (builtinPackage o) where
  env := ⟨rfl, rfl, fun _ => rfl, fun _ => rfl, fun _ => rfl, fun _ => rfl, fun _ => rfl⟩
  name := rfl
  files := rfl
  moved := by intro f hf; simp [builtinPackage] at hf
  implicits := rfl
  pkgNameOf := fun _ => rfl
  imports := rfl
  defs := rfl
  scope := rfl

theorem seen_ren {d d' : Delivered} (h : RenamedProgram ρ d d') : d'.seen = d.seen := by
  unfold Delivered.seen
  rw [h.imports, h.roots]
  congr 1
  funext i
  rw [(h.packages i).files, List.length_map]

theorem packageOf_ren {d d' : Delivered} (h : RenamedProgram ρ d d') (info : Nat → Loader.PkgSt) (i : Nat) :
    RenamedPackage ρ (packageOf d info i) (packageOf d' info i) := by
  obtain ⟨env, name, files, moved, implicits, pkgNameOf, imports, defs, scope⟩ := h.packages i
  obtain ⟨e1, e2, e3, e4, e5, e6, e7⟩ := env
  refine ⟨⟨rfl, rfl, e3, e4, e5, e6, e7⟩, name, files, moved, implicits, pkgNameOf, ?_, defs, scope⟩
  unfold packageOf
  simp only [h.imports]

theorem kept_ren {d d' : Delivered} (h : RenamedProgram ρ d d') (o : Cmd.IndexOpts) (info : Nat → Loader.PkgSt) (k : Loader.Kept) :
    RenamedPackage ρ (keptPackage d o info k) (keptPackage d' o info k) := by
  cases k with
  | builtin => exact builtin_ren o
  | loaded i => exact packageOf_ren h info i

theorem allOf_ren {d d' : Delivered} (h : RenamedProgram ρ d d') (o : Cmd.IndexOpts) (l : Loader.Loaded) :
    RenamedMap ρ (allOf d o l) (allOf d' o l) := by
  unfold RenamedMap allOf
  induction l.st.all with
  | nil => exact .nil
  | cons e es ih => exact .cons ⟨rfl, kept_ren h o _ _⟩ ih

theorem projectOf_ren {d d' : Delivered} (h : RenamedProgram ρ d d') (o : Cmd.IndexOpts) (l : Loader.Loaded) :
    RenamedMap ρ (projectOf d o l) (projectOf d' o l) := by
  unfold RenamedMap projectOf
  induction l.project with
  | nil => exact .nil
  | cons e es ih =>
    obtain ⟨k, _ | x⟩ := e
    · exact ih
    · exact .cons ⟨rfl, kept_ren h o _ _⟩ ih

/-- C94, the program: a run on the one delivery is a run on the other one, with some orders of iteration. -/
theorem C94_same_run (D D' : Deps) (answer answer' : Query → Except Str Delivered) (env : Loader.Env) (order : Nat → Nat → List Nat)
    (fuel : Nat) (ord' : MapOrders) (o : Cmd.IndexOpts) (w : Writer) (d d' : Delivered) (hD : RenamedDeps ρ D D')
    (hd : RenamedProgram ρ d d') (hq : ∀ q, answer q = .ok d) (hq' : ∀ q, answer' q = .ok d') (hv : ValidMapOrders ord') :
    ∃ ord, ValidMapOrders ord ∧ indexing D' answer' env order fuel ord' o w = indexing D answer env order fuel ord o w := by
  unfold indexing load
  rw [hq, hq']
  simp only
  rw [seen_ren hd, hd.info]
  have first : ∀ (ord : MapOrders) (e : Str), index D' (indexOpts o) ord' w (.error e) = index D (indexOpts o) ord w (.error e) := by
    intro ord e
    unfold index metadata projectRoot
    rw [hD.toolVersion, hD.escapePath]
  cases Loader.loadPackages env (loaderOpts o) (some (d.seen, d.info)) order fuel with
  | none => exact ⟨ord', hv, rfl⟩
  | some r =>
    cases r with
    | none => exact ⟨ord', hv, by simp only [Option.map_some]; rw [first]⟩
    | some l =>
      obtain ⟨ord, h1, h2⟩ := C94_index D D' (indexOpts o) ord' w _ _ _ _ hD (projectOf_ren hd o l) (allOf_ren hd o l) hv
      exact ⟨ord, h1, by simp only [Option.map_some]; rw [h2]⟩

/-- C94: two deliveries of one program, which may differ in the places of the files in the file set and in all addresses, give the same
index, whatever the orders of iteration in both runs. -/
theorem C94_same_index (D D' : Deps) (answer answer' : Query → Except Str Delivered) (env : Loader.Env)
    (order order' : Nat → Nat → List Nat) (fuel fuel' : Nat) (ord ord' : MapOrders) (o : Cmd.IndexOpts) (w w' : Writer)
    (d d' : Delivered) (objs : List Obj) (hd : RenamedProgram ρ d d') (hD : RenamedDeps ρ D D')
    (hg : GoProgram d answer order o)
    (hq' : answer' ⟨o.moduleRoot, !o.skipTests, if o.packagePatterns = [] then [go!"./..."] else o.packagePatterns⟩ = .ok d')
    (ho' : ValidOrder d'.graph order') (ha : AlikeVariants d) (ht : TypedProgram d D objs)
    (hs : SignedProgram d D) (hn : NamedProgram d D env o) (hv : ValidMapOrders ord) (hv' : ValidMapOrders ord')
    (hroot : o.moduleRoot = [] ∨ Absolute o.moduleRoot) (hdir : ∀ i, Reachable d.graph i → DirOk (identityOpts o) (d.info i))
    (hw : ∀ a m, w a m = none) (hw' : ∀ a m, w' a m = none) (hb : ∀ f, env.readMod f ≠ .broken)
    (r r' : Run) (hr : indexing D answer env order fuel ord o w = some r) (hr' : indexing D' answer' env order' fuel' ord' o w' = some r') :
    r.outcome = .ok ∧ r'.outcome = .ok ∧ SameIndex r.messages r'.messages := by
  have hgraph : d'.graph = d.graph := seen_ren hd
  have hg1 : GoProgram d (fun _ => .ok d) order o := ⟨rfl, hg.order, hg.paths, hg.variants⟩
  have hg2 : GoProgram d (fun _ => .ok d) order' o := ⟨rfl, hgraph ▸ ho', hg.paths, hg.variants⟩
  have e1 : indexing D answer env order fuel ord o w = indexing D (fun _ => .ok d) env order fuel ord o w := by
    have := hg.answer
    unfold indexing load query
    rw [show (if o.packagePatterns.length = 0 then [go!"./..."] else o.packagePatterns) =
      (if o.packagePatterns = [] then [go!"./..."] else o.packagePatterns) by cases o.packagePatterns <;> rfl, this]
  have e2 : indexing D' answer' env order' fuel' ord' o w' = indexing D' (fun _ => .ok d') env order' fuel' ord' o w' := by
    have := hq'
    unfold indexing load query
    rw [show (if o.packagePatterns.length = 0 then [go!"./..."] else o.packagePatterns) =
      (if o.packagePatterns = [] then [go!"./..."] else o.packagePatterns) by cases o.packagePatterns <;> rfl, this]
  obtain ⟨ord₂, hv₂, e3⟩ := C94_same_run D D' (fun _ => .ok d) (fun _ => .ok d') env order' fuel' ord' o w' d d' hD hd (fun _ => rfl)
    (fun _ => rfl) hv'
  rw [e1] at hr
  rw [e2, e3] at hr'
  exact C85_same_index D (fun _ => .ok d) env order order' fuel fuel' ord ord₂ o w w' d objs hg1 hg2 ha ht hs hn hv hv₂ hroot hdir hw hw' hb
    r r' hr hr'

end Verif
