import Verif.Props.StderrRun
import Verif.Props.MainSample
import Verif.Props.PlacesSample
/-! # Concrete runs meet the hypotheses of C105: the sample program, with a package of which there are no types -/
namespace Verif.StderrSample
open Verif Spec Index IndexSample Program Loader.Spec Cmd Commands Main Git ProgramSample Stderr

/-- The sample program, but of `os` there are no types. -/
def gapped : Delivered := { checkedOut with package := fun i => if i = 3 then { package 3 with scope := none } else package i }

def answerGap : Query → Except Str Delivered := fun q =>
  if q.dir = go!"/w/m" ∧ q.patterns = [go!"./..."] then .ok gapped else .error go!"no packages"

theorem graph_gapped : gapped.graph = checkedOut.graph := by
  unfold Delivered.graph
  congr 1
  funext i
  show (if i = 3 then { package 3 with scope := none } else package i).files.length = (package i).files.length
  split
  · rename_i h; subst h; rfl
  · rfl

theorem reach_gapped {i : Nat} (h : Reachable gapped.graph i) : Reachable checkedOut.graph i := by rw [← graph_gapped]; exact h

theorem in_project_gapped {i : Nat} (h : InProject gapped i) : i = 0 := by
  obtain ⟨h1, r, hr, h2⟩ := h
  have hr0 : r = 0 := by simpa [gapped, checkedOut, delivered] using hr
  subst hr0
  match i, reach (reach_gapped h1) with
  | 0, _ => rfl
  | 1, _ | 2, _ | 3, _ | 4, _ => revert h2; decide +kernel

theorem in_checked {i : Nat} (h : InProject gapped i) : InProject checkedOut i := by
  obtain ⟨h1, h2⟩ := h
  exact ⟨reach_gapped h1, h2⟩

theorem known_gapped : pathKnown gapped = pathKnown checkedOut := by
  funext q
  unfold pathKnown
  congr 1
  unfold PathKnown
  rw [graph_gapped]
  rfl

theorem typed_gapped : TypedProgram gapped deps objs where
  packages := fun i hi => by
    have := in_project_gapped hi
    subst this
    rw [known_gapped]
    exact typed_main.packages 0 (in_checked hi)
  types := fun i hi => by
    by_cases h3 : i = 3
    · subst h3
      refine ⟨?_, ?_⟩
      · intro t ⟨ds, hds, ht⟩
        rcases hds with hds | hds <;> simp [asDelivered, gapped, package, pkgStd] at hds
      · intro ds hds
        simp [asDelivered, gapped, package, pkgStd] at hds
    · have := typed_main.types i (reach_gapped hi)
      have e : asDelivered gapped i = asDelivered checkedOut i := by
        unfold asDelivered
        have hp : gapped.package i = checkedOut.package i := if_neg h3
        rw [hp]
        rfl
      rw [e]; exact this
  files_once := fun i hi => by
    have := in_project_gapped hi
    subst this
    exact typed_main.files_once 0 (in_checked hi)
  files_apart := fun i j hi hj hne => by
    have e := in_project_gapped hi
    have e' := in_project_gapped hj
    subst e e'
    exact absurd rfl hne
  coherent := typed_main.coherent
  wellFormed := typed_main.wellFormed

theorem parsed_gapped : ParsedProgram gapped where
  places := fun i hi => by
    have := in_project_gapped hi
    subst this
    have h := IndexSample.parsed.places
    exact (List.nodup_flatMap.1 h).1 (go!"m/p", pkgP) (by simp [project])
  apart := fun i j hi hj hne => by
    have e := in_project_gapped hi
    have e' := in_project_gapped hj
    subst e e'
    exact absurd rfl hne
  specs := fun i hi f hf => by
    have := in_project_gapped hi
    subst this
    exact IndexSample.parsed.specs pkgP (by simp [project]; rfl) f hf

theorem no_package_objs : ∀ r ∈ objs, ∀ q, (entityOf r).cls ≠ .pkgName q := by
  have h : (IndexSample.objs.all fun r => match (entityOf r).cls with | .pkgName _ => false | _ => true) = true := by decide +kernel
  intro r hr q hq
  have := List.all_eq_true.1 h r hr
  simp only [hq] at this
  cases this

theorem files_gapped (i : Nat) : (gapped.package i).files = (checkedOut.package i).files := by
  show (if i = 3 then { package 3 with scope := none } else package i).files = (package i).files
  split
  · rename_i h; subst h; rfl
  · rfl

theorem variants_gapped : GoVariants gapped where
  largest := fun i j hi hj => by rw [files_gapped, files_gapped]; simp only [files_gapped]; exact variants_main.largest i j (reach_gapped hi) (reach_gapped hj)
  files_nested := fun i j hi hj => by
    simp only [fileNames, files_gapped]
    exact variants_main.files_nested i j (reach_gapped hi) (reach_gapped hj)
  imports_nested := fun i j hi hj => by
    rw [files_gapped, files_gapped, graph_gapped]
    exact variants_main.imports_nested i j (reach_gapped hi) (reach_gapped hj)
  builtin := fun i hi h => by
    rw [files_gapped]
    exact variants_main.builtin i (reach_gapped hi) h

theorem signed_gapped : SignedProgram gapped deps := by
  refine ⟨signed.1, fun i hi t ht => ?_⟩
  by_cases h3 : i = 3
  · subst h3
    obtain ⟨ds, hds, _⟩ := ht
    rcases hds with hds | hds <;> simp [gapped, package, pkgStd] at hds
  · refine signed.2 i (reach_gapped hi) t ?_
    obtain ⟨ds, hds, hm⟩ := ht
    have hp : gapped.package i = package i := if_neg h3
    rw [hp] at hds
    exact ⟨ds, hds, hm⟩

theorem clean : CleanDeliveries deps answerGap order := by
  intro q d h
  unfold answerGap at h
  split at h
  · simp only [Except.ok.injEq] at h
    subst h
    exact ⟨fun i n => by rw [graph_gapped]; exact .refl _, go_program.paths, variants_gapped, signed_gapped, parsed_gapped, objs, typed_gapped, no_package_objs⟩
  · simp at h

/-! ## What is shown -/

def profileEnd : ProfileEnd := ⟨none, some go!"disk full"⟩

def logOf (Y : System) (g : Given) (command : Selected) : List Rec :=
  mainLog deps answerGap env order 1 20 ord (fun m => m.map (·.2), fun m => m.map (·.2)) Y (CmdSample.world CmdSample.good) profileEnd (.ok (g, command))

/-- There is no go.mod file, and a packages driver. -/
def bare : System := { system with modules := { system.modules with readGoMod := fun _ => none }, driver := some go!"bazel" }

example : logOf system noFlags (.index none 0) = [.warn (.noTypes go!"os")] := by decide +kernel
example : logOf system { noFlags with skipImplementations := true } (.index none 0) = [] := by decide +kernel
example : logOf system { noFlags with quiet := true } (.index none 3) = [] := by decide +kernel
example : logOf system noFlags (.index none 3) = [.warn (.noTypes go!"os"), .profileNotClosed go!"disk full"] := by decide +kernel
example : logOf system { noFlags with verbose := 1 } (.index none 0) =
    [.goVersion go!"go1.22", .moduleName go!"m", .warn (.noTypes go!"os")] := by decide +kernel
example : logOf system { noFlags with verbose := 1, skipTests := true } .packages = [.goVersion go!"go1.22", .moduleName go!"m", .skipTests] := by decide +kernel
example : logOf bare noFlags .missing = [.warn .noGoMod] := by decide +kernel
example : logOf bare { noFlags with verbose := 1, skipImplementations := true } .packages =
    [.warn .noGoMod, .goVersion go!"go1.22", .moduleName [], .skipImplementations, .driver go!"bazel"] := by decide +kernel
example : logOf bare { noFlags with verbose := 1, modulePath := some go!"std" } .packages =
    [.goVersion go!"go1.22", .moduleName go!"std", .stdlib, .driver go!"bazel"] := by decide +kernel

/-- An exception of C105_quiet: the working directory is unknown. -/
example : mainLog deps answerGap env order 5 20 ord (fun m => m.map (·.2), fun m => m.map (·.2)) { system with getwd := .error go!"gone" }
    (CmdSample.world CmdSample.good) profileEnd (.ok ({ noFlags with quiet := true, moduleRoot := some go!"x" }, .index none 3)) =
    [.profileNotClosed go!"disk full"] := by decide +kernel

theorem dirs_gapped (o : IndexOpts) (ho : o = optionsMain) : ∀ d, answerGap ⟨o.moduleRoot, true, [go!"./..."]⟩ = .ok d →
    ∀ i, Reachable d.graph i → DirOk (identityOpts o) (d.info i) := by
  subst ho
  intro d h i hi
  unfold answerGap at h
  rw [if_pos (by decide +kernel)] at h
  simp only [Except.ok.injEq] at h
  subst h
  intro m hm
  match i, reach (reach_gapped hi) with
  | 0, _ =>
    have : m = ⟨⟨go!"m", [], go!"/w/m", go!"/w/m/go.mod"⟩, none⟩ := by
      simp only [gapped, checkedOut, infoMain, info, Option.map_some, Option.some.injEq] at hm
      exact hm.symm
    subst this
    exact .inr rfl
  | 1, _ | 2, _ | 3, _ | 4, _ => simp [gapped, checkedOut, infoMain, info] at hm

/-- C105_index applies to the run. -/
example (x : Main.Outcome) (hx : Main.main deps answerGap env order 1 20 ord (fun m => m.map (·.2), fun m => m.map (·.2)) system
    (CmdSample.world CmdSample.good) (.ok (noFlags, .index none 0)) .absent = some x) (h0 : x.ending.status = 0) :
    ∃ d project all ps k, ProgramMaps d env optionsMain project all ∧ ps.Perm ((all.map (·.2)).filter untyped) ∧
      (filesOf (sortedValues project)).length ≤ k ∧
      logOf system noFlags (.index none 0) = visible noFlags (moduleNotes system noFlags optionsMain ++ settings system optionsMain ++
        (typesNotes ps ++ importNotes deps all ((filesOf (sortedValues project)).take k)) ++ profileNotes profileEnd 0) := by
  have hdir : defaultModuleRoot system 1 = some go!"." := by decide +kernel
  obtain ⟨notes, h1, h2⟩ := (C105_index deps answerGap env order 1 20 ord _ system _ profileEnd noFlags none 0 .absent clean ord_ok
    (fun w hw => ⟨[go!"w", go!"m"], by decide, by simp only [system, Except.ok.injEq] at hw; exact hw.symm⟩) go!"." hdir optionsMain starts
    (dirs_gapped _ rfl) x hx).2 (fun h => absurd h (by decide))
  rcases h2 with ⟨_, h⟩ | ⟨d, project, all, ps, k, _, h3, h4, rfl, h6⟩
  · exact absurd h0 h
  · exact ⟨d, project, all, ps, k, h3, h4, h6 h0, h1⟩

example : (Main.main deps answerGap env order 1 20 ord (fun m => m.map (·.2), fun m => m.map (·.2)) system
    (CmdSample.world CmdSample.good) (.ok (noFlags, .index none 0)) .absent).map (·.ending.status) = some 0 := by decide +kernel

/-- C105_listing applies. -/
example (command : Selected) (hc : command = .packages ∨ command = .missing) :
    logOf system noFlags command = visible noFlags (moduleNotes system noFlags optionsMain ++ settings system optionsMain) :=
  C105_listing deps answerGap env order 1 20 ord _ system _ profileEnd noFlags command hc clean (fun _ => .refl _)
    (fun w hw => ⟨[go!"w", go!"m"], by decide, by simp only [system, Except.ok.injEq] at hw; exact hw.symm⟩) go!"." (by decide +kernel) optionsMain starts
    (dirs_gapped _ rfl)

/-- C105_bad_arguments applies. -/
example (x : Main.Outcome) (hx : Main.main deps answerGap env order 1 20 ord (fun m => m.map (·.2), fun m => m.map (·.2)) system
    (CmdSample.world CmdSample.good) (.error go!"unknown flag --x") .absent = some x) :
    x.ending.status = 1 ∧ x.ending.stderr = go!"error: failed to parse args: unknown flag --x\n" := by
  obtain ⟨_, _, _, _, dir, hdir, ⟨hb, _⟩ | ⟨_, h1, h2⟩⟩ := C105_bad_arguments deps answerGap env order 1 20 ord _ system _ profileEnd _ .absent x hx
  · have : dir = go!"." := root_found in_repository hdir
    subst this
    exact absurd hb starts.answers
  · exact ⟨h1, h2⟩

/-- A run that does not start: a negative verbosity. -/
example : ∀ r ∈ logOf system { noFlags with verbose := -1 } .packages, False := by
  intro r hr
  obtain ⟨_, _, h, _⟩ := C105_not_started deps answerGap env order 1 20 ord _ system _ profileEnd _ _ (fun dir o _ h => by
    rcases h.verbosity with h | h
    · exact absurd h (by decide)
    · exact absurd h (by decide)) r hr
  cases h

end Verif.StderrSample
