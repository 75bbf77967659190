import Verif.Props.EndToEndCommand
import Verif.Props.ContentSample
import Verif.Props.CmdSample
/-! # The program of `ProgramSample`, run from the command line, meets the hypotheses of C88 -/
namespace Verif.ProgramSample
open Verif Spec Index IndexSample Program Loader.Spec Cmd Commands

def surroundings : Surroundings := ⟨fun _ => .ok go!"/w/m", fun _ _ _ => .ok (go!"m", false), none, []⟩
def flags : SharedFlags := ⟨go!".", [], [], go!"v1", go!"go1", false, 0, false, false, []⟩

theorem options_made : makeOptions surroundings flags = .ok (options, levelWarn) := by decide +kernel

theorem abs_absolute : ∀ p q, surroundings.abs p = .ok q → Absolute q := by
  intro p q h
  simp only [surroundings, Except.ok.injEq] at h
  subst h
  exact absolute

def result : Option Result := command deps answer env order 20 ord surroundings flags (CmdSample.world CmdSample.good) 0 go!"index.scip" .absent
def resultFull : Option Result := command deps answer env order 20 ord surroundings flags (CmdSample.world CmdSample.full) 0 go!"index.scip" .absent

theorem result_ok : result.map (fun r => (mainEnding (.ok ()) r.exit).status) = some 0 := by decide +kernel
theorem full_failed : resultFull.map (fun r => (mainEnding (.ok ()) r.exit).status) = some 1 := by decide +kernel

/-- C88: the file holds the index of the program. -/
example (shown : List Stdout.Shown) (hshown : Stdout.Program deps answer env order 20 ord surroundings flags (CmdSample.world CmdSample.good) 0
    go!"index.scip" shown) : ∃ r project all ms c, result = some r ∧ ProgramMaps delivered env options project all ∧
    IndexOf deps (indexOpts options) project all ms ∧ r.target = .regular c ∧ Decodes c ms := by
  have h := result_ok
  cases hr : result with
  | none => rw [hr] at h; simp at h
  | some r =>
    rw [hr] at h
    simp only [Option.map_some, Option.some.injEq] at h
    rcases (C88_command deps answer env order 20 ord surroundings flags (CmdSample.world CmdSample.good) 0 go!"index.scip" .absent options levelWarn
      delivered objs options_made abs_absolute go_program typed signed named ord_ok
      (fun i hi => by rw [ProgramSample.in_project hi]; exact distinct) no_packages dirs rfl rfl (fun _ => []) _ hshown r hr).1 with ⟨_, project, all, ms, h1, h2, h3⟩ | ⟨h1, _⟩
    · unfold OutputHolds at h3
      rw [if_neg (by decide)] at h3
      rcases h3.2 with ⟨h4, _⟩ | ⟨_, c, h4, h5⟩
      · simp at h4
      · exact ⟨r, project, all, ms, c, rfl, h1, h2, h4, h5⟩
    · rw [h] at h1; simp at h1

/-- C88: on a full disk nothing is left over. -/
example (shown : List Stdout.Shown) (hshown : Stdout.Program deps answer env order 20 ord surroundings flags (CmdSample.world CmdSample.full) 0
    go!"index.scip" shown) : ∃ r, resultFull = some r ∧ r.target = .absent := by
  have h := full_failed
  cases hr : resultFull with
  | none => rw [hr] at h; simp at h
  | some r =>
    rw [hr] at h
    simp only [Option.map_some, Option.some.injEq] at h
    rcases (C88_command deps answer env order 20 ord surroundings flags (CmdSample.world CmdSample.full) 0 go!"index.scip" .absent options levelWarn
      delivered objs options_made abs_absolute go_program typed signed named ord_ok
      (fun i hi => by rw [ProgramSample.in_project hi]; exact distinct) no_packages dirs rfl rfl (fun _ => []) _ hshown r hr).1 with ⟨h1, _⟩ | ⟨_, _, h1⟩
    · rw [h] at h1; simp at h1
    · exact ⟨r, rfl, by simpa using h1⟩

/-- Nothing fails with a good disk. -/
example : NothingFails (CmdSample.world CmdSample.good) 0 go!"index.scip" env :=
  ⟨fun h => absurd h (by decide), fun _ => rfl, fun _ _ => rfl, fun _ h => by simp [env] at h⟩

example : ∃ n r, ∀ m, n ≤ m → command deps answer env order m ord surroundings flags (CmdSample.world CmdSample.good) 0 go!"index.scip" .absent = some r :=
  C88_ends deps answer env order ord surroundings flags _ 0 _ _ delivered (fun o l h => by
    rw [options_made] at h
    simp only [Res.ok.injEq, Prod.mk.injEq] at h
    rw [← h.1]
    exact go_program) finite

end Verif.ProgramSample
