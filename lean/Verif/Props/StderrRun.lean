import Verif.Props.Stderr
/-! # C105: what a run logs once it has started -/
namespace Verif
open Spec Index Program Loader Loader.Spec Cmd Git Commands Main Filepath Warnings Stderr

/-- Whatever the go command delivers, it is a program without errors, as the parser delivers it. -/
def Spec.CleanDeliveries (D : Deps) (answer : Query → Except Str Delivered) (order : Nat → Nat → List Nat) : Prop :=
  ∀ q d, answer q = .ok d → ValidOrder d.graph order ∧ NoStdPrefix d.info ∧ GoVariants d ∧ SignedProgram d D ∧ ParsedProgram d ∧
    ∃ objs, TypedProgram d D objs ∧ ∀ r ∈ objs, ∀ q, (entityOf r).cls ≠ .pkgName q

section
variable {D : Deps} {answer : Query → Except Str Delivered} {env : Loader.Env} {order : Nat → Nat → List Nat} {fuel : Nat} {o : IndexOpts}

/-- What loading comes to. -/
theorem load_maps {project all : GoMap Package} (hl : load answer env order fuel o o.moduleRoot = some (.ok (project, all)))
    (hd : CleanDeliveries D answer order) (hroot : o.moduleRoot = [] ∨ Absolute o.moduleRoot)
    (hdir : ∀ d, answer (query o.moduleRoot o) = .ok d → ∀ i, Reachable d.graph i → DirOk (identityOpts o) (d.info i)) :
    ∃ d objs, answer (query o.moduleRoot o) = .ok d ∧ ProgramMaps d env o project all ∧ ParsedProject project ∧ TypedProject D project all objs ∧
      ExtractorOk D all ∧ ∀ r ∈ objs, ∀ q, (entityOf r).cls ≠ .pkgName q := by
  unfold load at hl
  cases ha : answer (query o.moduleRoot o) with
  | error e => rw [ha] at hl; simp at hl
  | ok d =>
    rw [ha] at hl
    obtain ⟨h1, h2, h3, h4, h5, objs, h6, h7⟩ := hd _ d ha
    simp only [seen_eq] at hl
    split at hl
    · simp at hl
    · simp at hl
    · rename_i l hsome
      simp only [Option.some.injEq, Except.ok.injEq, Prod.mk.injEq] at hl
      obtain ⟨rfl, rfl⟩ := hl
      have hok : LoadOk d env o order fuel l := ⟨h1, h2, h3, hsome⟩
      have hm := hok.maps hroot (hdir d ha)
      exact ⟨d, objs, rfl, hm, parsedProject_of hm h5, hok.typed h6, extractorOk_of hok h4, h7⟩

theorem syntaxLog_nil {project all : GoMap Package} {objs : List Obj} (ht : TypedProject D project all objs) (hp : ParsedProject project) (root : Str) :
    ∀ (ps : List Package) (docs : Docs), (∀ p ∈ ps, (p.path, p) ∈ project) → syntaxLog root ps docs = [] := by
  intro ps
  induction ps with
  | nil => intro s _; rfl
  | cons p ps ih =>
    intro docs h
    have h1 : visitPackageSyntaxWarned p.env (p.files.map SourceFile.node) [] = [] := by
      rw [List.eq_nil_iff_forall_not_mem]
      intro c hc
      obtain ⟨i, ds, i', ds', hd, hd', e1, e2, hne⟩ := C104_conflict_cause p.env _ (filesOk_of ht (h p (by simp))) c hc
      rw [e1, e2, (C99_one_entity hp p (h p (by simp)) _ _ _ _ _ hd hd').2] at hne
      exact hne rfl
    simp only [syntaxLog, h1, List.map_nil, List.nil_append]
    cases visitSyntaxOf root p docs with
    | none => rfl
    | some r => exact ih r.1 (fun q hq => h q (by simp [hq]))

end

/-- **C105** (the listing commands): they tell what they work with and of a missing go.mod file, as far as the flags want it, and nothing else. -/
theorem C105_listing (D : Deps) (answer : Query → Except Str Delivered) (env : Loader.Env) (order : Nat → Nat → List Nat) (steps fuel : Nat)
    (ord : MapOrders) (ord' : (GoMap Package → List Package) × (GoMap Package → List Package)) (Y : System) (W : World) (P : ProfileEnd)
    (g : Given) (command : Selected) (hcmd : command = .packages ∨ command = .missing) (hd : CleanDeliveries D answer order)
    (hord : ∀ m, (ord'.1 m).Perm (m.map (·.2)))
    (hwd : ∀ w, Y.getwd = .ok w → ∃ dir : List Str, (∀ x ∈ dir, x ≠ [] ∧ x ≠ go!"." ∧ x ≠ go!".." ∧ '/' ∉ x) ∧ w = pathOf dir)
    (dir : Str) (hdir : defaultModuleRoot Y steps = some dir) (o : IndexOpts) (hs : Starts Y dir g o)
    (hdirs : ∀ d, answer ⟨o.moduleRoot, !g.skipTests, if g.packagePatterns = [] then [go!"./..."] else g.packagePatterns⟩ = .ok d →
      ∀ i, Reachable d.graph i → DirOk (identityOpts o) (d.info i)) :
    mainLog D answer env order steps fuel ord ord' Y W P (.ok (g, command)) = visible g (moduleNotes Y g o ++ settings Y o) := by
  obtain ⟨sh, level, hp, hm⟩ := (starts_iff hdir (c := command)).2 hs
  obtain ⟨_, dir', Ds, hdir', rfl⟩ := parse_ok hp
  obtain ⟨hlog, hlev⟩ := makeOptionsLog_ok hm
  have hpat : o.packagePatterns ≠ [] := by
    rw [hs.patterns]
    by_cases h : g.packagePatterns = [] <;> simp [h]
  have hq : query o.moduleRoot o = ⟨o.moduleRoot, !g.skipTests, if g.packagePatterns = [] then [go!"./..."] else g.packagePatterns⟩ := by
    rw [query_eq, hs.skipTests, hs.patterns]
    by_cases he : g.packagePatterns = [] <;> simp [he]
  unfold mainLog
  rw [hp]
  rcases hcmd with rfl | rfl
  · dsimp only
    unfold listingLog
    rw [hlog, hm]
    dsimp only
    rw [loadLog_nil hpat, List.map_nil, List.append_nil]
    exact printed_visible hlev _
  · dsimp only
    unfold listingLog
    rw [hlog, hm]
    dsimp only
    have hmiss : missingLog answer env order fuel ord'.1 o = [] := by
      unfold missingLog
      rw [loadLog_nil hpat]
      cases hl : load answer env order fuel o o.moduleRoot with
      | none => rfl
      | some loaded =>
        cases loaded with
        | error e => rfl
        | ok z =>
          obtain ⟨project, all⟩ := z
          obtain ⟨d, objs, ha, hmaps, hpp, htp, _, _⟩ := load_maps hl hd (.inr (absolute_abs hwd hs.root)) (by rw [hq]; exact hdirs)
          refine syntaxLog_nil htp hpp _ _ _ fun p hmem => ?_
          obtain ⟨e, he, rfl⟩ := List.mem_map.1 ((hord project).subset hmem)
          obtain ⟨k, p⟩ := e
          have hk := htp.project_keyed.2 k p he
          rw [← hk] at he
          exact he
    rw [hmiss, List.map_nil, List.append_nil]
    exact printed_visible hlev _

/-- **C105** (`index`): the command tells what it works with and of a missing go.mod file; then of the packages without types, each once, and of the imports that
could not be resolved, in the order of the files and of the source; at the end of a memory profile that could not be written; each as far as the flags want it,
and nothing else.  A run that succeeds tells of all of them. -/
theorem C105_index (D : Deps) (answer : Query → Except Str Delivered) (env : Loader.Env) (order : Nat → Nat → List Nat) (steps fuel : Nat)
    (ord : MapOrders) (ord' : (GoMap Package → List Package) × (GoMap Package → List Package)) (Y : System) (W : World) (P : ProfileEnd)
    (g : Given) (output : Option Str) (profile : Int) (before : Target) (hd : CleanDeliveries D answer order) (hv : ValidMapOrders ord)
    (hwd : ∀ w, Y.getwd = .ok w → ∃ dir : List Str, (∀ x ∈ dir, x ≠ [] ∧ x ≠ go!"." ∧ x ≠ go!".." ∧ '/' ∉ x) ∧ w = pathOf dir)
    (dir : Str) (hdir : defaultModuleRoot Y steps = some dir) (o : IndexOpts) (hs : Starts Y dir g o)
    (hdirs : ∀ d, answer ⟨o.moduleRoot, !g.skipTests, if g.packagePatterns = [] then [go!"./..."] else g.packagePatterns⟩ = .ok d →
      ∀ i, Reachable d.graph i → DirOk (identityOpts o) (d.info i))
    (x : Main.Outcome) (hx : Main.main D answer env order steps fuel ord ord' Y W (.ok (g, .index output profile)) before = some x) :
    (0 < profile → W.createProfile ≠ none → mainLog D answer env order steps fuel ord ord' Y W P (.ok (g, .index output profile)) = []) ∧
    ((0 < profile → W.createProfile = none) → ∃ notes,
      mainLog D answer env order steps fuel ord ord' Y W P (.ok (g, .index output profile)) =
        visible g (moduleNotes Y g o ++ settings Y o ++ notes ++ profileNotes P profile) ∧
      (notes = [] ∧ x.ending.status ≠ 0 ∨
       ∃ d project all ps k, answer ⟨o.moduleRoot, !g.skipTests, if g.packagePatterns = [] then [go!"./..."] else g.packagePatterns⟩ = .ok d ∧
        ProgramMaps d env o project all ∧ ps.Perm (if g.skipImplementations then [] else (all.map (·.2)).filter untyped) ∧
        notes = typesNotes ps ++ importNotes D all ((filesOf (sortedValues project)).take k) ∧
        (x.ending.status = 0 → (filesOf (sortedValues project)).length ≤ k))) := by
  obtain ⟨sh, level, hp, hm⟩ := (starts_iff hdir (c := Selected.index output profile)).2 hs
  obtain ⟨_, dir', Ds, hdir', rfl⟩ := parse_ok hp
  obtain ⟨hlog, hlev⟩ := makeOptionsLog_ok hm
  have hpat : o.packagePatterns ≠ [] := by
    rw [hs.patterns]
    by_cases h : g.packagePatterns = [] <;> simp [h]
  have hq : query o.moduleRoot o = ⟨o.moduleRoot, !g.skipTests, if g.packagePatterns = [] then [go!"./..."] else g.packagePatterns⟩ := by
    rw [query_eq, hs.skipTests, hs.patterns]
    by_cases he : g.packagePatterns = [] <;> simp [he]
  have hmain : mainLog D answer env order steps fuel ord ord' Y W P (.ok (g, .index output profile)) =
      (let (level, rs) := runLog D answer env order fuel ord Y (sharedFlags dir' Ds g) W P profile (output.getD go!"index.scip")
       printed level rs) := by
    unfold mainLog
    rw [hp]
  rw [hmain]
  unfold runLog
  constructor
  · intro hpos hc
    rw [if_pos hpos]
    cases hcp : W.createProfile with
    | none => exact absurd hcp hc
    | some e => rfl
  · intro hprof
    have hcp : (if profile > 0 then W.createProfile else none) = none := by
      split
      · rename_i h; exact hprof h
      · rfl
    -- how the run ends
    obtain ⟨loaded, hload, hend⟩ : ∃ loaded, load answer env order fuel o o.moduleRoot = some loaded ∧
        x.ending = mainEnding (.ok ()) (Cmd.run W profile (output.getD go!"index.scip") (.ok o)
          (fun o w => index D (indexOpts o) ord w loaded) before).exit := by
      unfold Main.main at hx
      rw [hp] at hx
      simp only [Option.map_eq_some_iff] at hx
      obtain ⟨r, hr, rfl⟩ := hx
      unfold Program.command at hr
      rw [hm] at hr
      simp only [Option.map_eq_some_iff] at hr
      obtain ⟨loaded, hl, rfl⟩ := hr
      exact ⟨loaded, hl, rfl⟩
    have hstat : x.ending.status = 0 ↔ (0 < profile → W.createProfile = none) ∧ (output.getD go!"index.scip" ≠ go!"-" → W.create = none) ∧
        (index D (indexOpts o) ord (writer W.disk) loaded).outcome = .ok := by
      rw [hend, status_zero, run_ok_iff]
    rw [hcp, hlog, hm]
    dsimp only
    rw [profileLog_eq, printed_visible hlev]
    have fin : ∀ notes : List Rec, (moduleNotes Y g o ++ settings Y o) ++ (notes ++ profileNotes P profile) =
        moduleNotes Y g o ++ settings Y o ++ notes ++ profileNotes P profile := fun notes => by simp
    cases hcr : (if output.getD go!"index.scip" = go!"-" then none else W.create) with
    | some e =>
      refine ⟨[], by rw [← fin], .inl ⟨rfl, fun h => ?_⟩⟩
      obtain ⟨_, h2, _⟩ := hstat.1 h
      split at hcr
      · simp at hcr
      · rename_i hne; rw [h2 hne] at hcr; simp at hcr
    | none =>
      refine ⟨_, by rw [← fin], ?_⟩
      unfold indexLog
      cases hw : writer W.disk [] (.metadata (metadata D (indexOpts o))) with
      | some e =>
        refine .inl ⟨rfl, fun h => ?_⟩
        obtain ⟨_, _, h3⟩ := hstat.1 h
        unfold index at h3
        simp only [hw] at h3
        simp at h3
      | none =>
        dsimp only
        rw [loadLog_nil hpat, hload]
        cases loaded with
        | error e =>
          refine .inl ⟨?_, fun h => ?_⟩
          · unfold indexWarned; rw [hw]; rfl
          · obtain ⟨_, _, h3⟩ := hstat.1 h
            unfold index at h3
            simp only [hw] at h3
            simp at h3
        | ok z =>
          obtain ⟨project, all⟩ := z
          obtain ⟨d, objs, ha, hmaps, hpp, htp, hex, horig⟩ := load_maps hload hd (.inr (absolute_abs hwd hs.root)) (by rw [hq]; exact hdirs)
          obtain ⟨ps, k, e1, e2, e3⟩ := (C104_index_warnings D (indexOpts o) ord (writer W.disk) project all objs htp hpp hex hv horig).2 hw
          refine .inr ⟨d, project, all, ps, k, by rw [← hq]; exact ha, hmaps, ?_, ?_, fun h => ?_⟩
          · rw [← hs.skipImplementations]; exact e2
          · dsimp only
            rw [List.nil_append, e1]
            simp [typesNotes, importNotes, List.map_flatMap, Function.comp_def]
          · obtain ⟨_, _, h3⟩ := hstat.1 h
            obtain ⟨pr, al, docs, gl, gl', heap, ds, ex, hl, hvp, him, hms, hpaths, hlen⟩ := C49_success_is_complete D (indexOpts o) ord _ _ h3
            simp only [Except.ok.injEq, Prod.mk.injEq] at hl
            obtain ⟨rfl, rfl⟩ := hl
            by_contra hlt
            have hk : k < (filesOf (sortedValues project)).length := by omega
            have := e3 k ds[k] (by
              rw [hms, List.getElem?_cons_succ, List.getElem?_append_left (by rw [hlen]; exact hk), List.getElem?_eq_getElem (by rw [hlen]; exact hk)]) hk
            omega

end Verif
