import Verif.Props.OutputFlags
import Verif.Props.EndToEndCommandSample
import Verif.Props.TextSample
/-! # The program of `ProgramSample`, run once with `--quiet --output=-` and once without, meets the hypotheses of C98 -/
namespace Verif.ProgramSample
open Verif Spec Index IndexSample Program Loader.Spec Cmd Commands

def quietArgs : Surroundings := { surroundings with args := [go!"--quiet", go!"--output=-"] }
def quietFlags : SharedFlags := { flags with quiet := true, verbose := -7 }
def resultQuiet : Option Result :=
  command deps answer env order' 20 ord quietArgs quietFlags (CmdSample.world CmdSample.good) 0 go!"-" .absent

theorem same_command : SameCommand surroundings quietArgs flags quietFlags := ⟨rfl, rfl⟩

theorem quiet_ok : resultQuiet.map (fun r => (mainEnding (.ok ()) r.exit).status) = some 0 := by decide +kernel

/-- C98: standard output of the second decodes to the index in the file of the first, with other recorded arguments. -/
example (shown shown' : List Stdout.Shown)
    (hshown : Stdout.Program deps answer env order 20 ord surroundings flags (CmdSample.world CmdSample.good) 0 go!"index.scip" shown)
    (hshown' : Stdout.Program deps answer env order' 20 ord quietArgs quietFlags (CmdSample.world CmdSample.good) 0 go!"-" shown') :
    ∃ r c ms ms', result = some r ∧ r.target = .regular c ∧ Decodes c ms ∧ Decodes (Stdout.render (fun _ => []) shown') ms' ∧
      SameIndexButArguments ms ms' ∧ ∃ md, ms'[0]? = some (.metadata md) ∧ md.arguments = [go!"--quiet", go!"--output=-"] := by
  have h := result_ok
  have h' := quiet_ok
  cases hr : result with
  | none => rw [hr] at h; simp at h
  | some r =>
    cases hr' : resultQuiet with
    | none => rw [hr'] at h'; simp at h'
    | some r' =>
      rw [hr] at h
      rw [hr'] at h'
      simp only [Option.map_some, Option.some.injEq] at h h'
      obtain ⟨ms, ms', h1, h2, h3, h4, h5⟩ := C98_same_index deps answer env order order' 20 20 ord ord surroundings quietArgs flags quietFlags same_command
        _ _ 0 0 _ _ .absent .absent options levelWarn delivered objs options_made abs_absolute go_program
        go_program' alike typed named ord_ok ord_ok dirs (fun _ => []) shown shown' hshown hshown'
        r r' hr hr' h h'
      unfold OutputHolds at h1 h2
      rw [if_neg (by decide)] at h1
      rw [if_pos rfl] at h2
      rcases h1.2 with ⟨h6, _⟩ | ⟨_, c, h6, h7⟩
      · simp at h6
      · exact ⟨r, c, ms, ms', rfl, h6, h7, h2.2.1 rfl, h3, h5⟩

/-- C98: the hypotheses of the second theorem; without `--quiet` the negative verbosity crashes. -/
example (r' : Result) (hr' : resultQuiet = some r') : (mainEnding (.ok ()) r'.exit).status = 0 :=
  (C98_succeeds deps answer env order' 20 ord surroundings quietArgs flags quietFlags same_command _ 0 _ .absent options levelWarn delivered objs options_made
    abs_absolute go_program' typed signed ord_ok dirs TextSample.program_text (by
      intro a ha
      simp only [quietArgs, List.mem_cons, List.not_mem_nil, or_false] at ha
      rcases ha with rfl | rfl <;> exact text_ascii' rfl)
    ⟨fun h => absurd h (by decide), fun _ => rfl, fun _ _ => rfl, fun _ h => by simp [env] at h⟩ r' hr').1 (.inl rfl)

example : (command deps answer env order' 20 ord quietArgs { flags with verbose := -7 } (CmdSample.world CmdSample.good) 0 go!"-" .absent).map
    (fun r => (mainEnding (.ok ()) r.exit).status) = some 2 := by decide +kernel

end Verif.ProgramSample
