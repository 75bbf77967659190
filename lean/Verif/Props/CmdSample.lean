import Verif.Props.Cmd
import Verif.Props.IndexSample
/-! # The command line program on the sample project -/
namespace Verif.CmdSample
open Verif Spec Pb Cmd

/-- A disk on which every write works, and one that takes only 200 bytes. -/
def good : Disk := fun _ _ => none
def full : Disk := fun c b => if c.length + b.length ≤ 200 then none else some (200 - c.length, go!"no space left on device")

def around : Surroundings :=
  ⟨fun s => .ok (go!"/w/" ++ s), fun _ _ _ => .ok (go!"m", false), some go!"bazel-driver", [go!"index"]⟩
def flags : SharedFlags := ⟨go!"m", [], [], go!"v1", go!"go1.22", false, 1, false, false, [go!"./..."]⟩
def options : IndexOpts := ⟨go!"/w/m", go!"v1", go!"m", true, go!"go1.22", false, false, false, [go!"./..."], [go!"index"]⟩

theorem options_made : makeOptions around flags = .ok (options, levelInfo) := by decide +kernel
/-- C41_driver_configured and C41_options_taken_over on it. -/
example : ∃ v, around.driver = some v ∧ v ≠ go!"off" := (C41_driver_configured around flags options levelInfo options_made).1 rfl
example := C41_options_taken_over around flags options levelInfo options_made
/-- A driver turned off, one not set and one set to the empty string. -/
example : driverSet (some go!"off") = false ∧ driverSet none = false ∧ driverSet (some []) = true := by decide +kernel

example : getLogLevel false 7 = some levelDebug ∧ getLogLevel true 7 = some levelError ∧ getLogLevel false (-1) = none := by decide +kernel
example : getLogLevel false (-1) = none := C61_negative_crashes (-1) (by decide)

def load : IndexOpts → Except Str (GoMap Index.Package × GoMap Index.Package) := fun _ => .ok (IndexSample.project, IndexSample.all)

def indexing := indexingOf IndexSample.deps IndexSample.ord load

theorem typed : ∀ o project all, load o = .ok (project, all) →
    ∃ objs, TypedProject IndexSample.deps project all objs ∧ ExtractorOk IndexSample.deps all := by
  intro o project all h
  simp only [load, Except.ok.injEq, Prod.mk.injEq] at h
  obtain ⟨rfl, rfl⟩ := h
  exact ⟨_, IndexSample.typed, IndexSample.extractor_ok⟩

def world (d : Disk) : World := ⟨none, none, d, true, true, AnonSample.quote⟩

def goodRun : Result := Cmd.run (world good) 0 go!"index.scip" (.ok options) indexing (.regular [1, 2, 3])
def fullRun : Result := Cmd.run (world full) 0 go!"index.scip" (.ok options) indexing (.regular [1, 2, 3])

/-- The content the good run leaves. -/
def written : Bytes := contentAfter good (indexing options (writer good)).messages

theorem good_outcome : (indexing options (writer good)).outcome = .ok := by decide +kernel
theorem good_small : written.length < 2 ^ 64 := by decide +kernel
example : goodRun.exit = .ok () ∧ goodRun.target = .regular written := by decide +kernel
/-- C52_successful_run_decodes: one metadata, two documents and the external symbols come back. -/
theorem good_decodes : Pb.Spec.unmarshal written = some
    { metadata := (metadataOf (indexing options (writer good)).messages).head?
      documents := documentsOf (indexing options (writer good)).messages
      externalSymbols := externalsOf (indexing options (writer good)).messages } :=
  C52_successful_run_decodes _ _ _ _ _ good_outcome good_small
example : (documentsOf (indexing options (writer good)).messages).length = 2 ∧ (externalsOf (indexing options (writer good)).messages).length = 1 ∧
    (metadataOf (indexing options (writer good)).messages).length = 1 := by decide +kernel
example : written.length > 500 := by decide +kernel

/-- The disk gets full in the middle of a document; the program reports it and the file is gone. -/
theorem full_exit : fullRun.exit = .error go!"failed to write to scip index file: no space left on device" := by decide +kernel
example : (contentAfter full (indexing options (writer full)).messages).length = 200 := by decide +kernel
example : fullRun.target = .absent :=
  (C54_failed_run_leaves_nothing (world full) 0 go!"index.scip" (.ok options) indexing (.regular [1, 2, 3]) _ rfl rfl full_exit).2.2 options rfl
    (by decide) (by decide) rfl (by decide)

/-- On standard output the bytes written before the failure stay. -/
example : (Cmd.run (world full) 0 go!"-" (.ok options) indexing .absent).piped.length = 200 ∧
    (Cmd.run (world full) 0 go!"-" (.ok options) indexing .absent).target = .absent := by decide +kernel
/-- Without a working `Remove` the partial file stays: the hypothesis of C54 is needed. -/
example : (Cmd.run { world full with removeOk := false } 0 go!"index.scip" (.ok options) indexing .absent).target ≠ .absent := by decide +kernel

example := C54_all_or_nothing IndexSample.deps IndexSample.ord load (world full) 0 go!"index.scip" (.ok options) .absent rfl rfl typed IndexSample.ord_ok

/-- Cutting the file: at a message boundary it decodes, inside a message it does not. -/
theorem three_messages : ∃ bs, Marshalled (indexing options (writer good)).messages bs := by
  refine (content_of_success good _ ?_).imp fun _ h => h.1
  intro a m b e
  exact (C50_write_failure _ _ _ _ (load options)).2.2.2 good_outcome a m b e
example : Pb.Spec.unmarshal (written.take 300) = none := by decide +kernel

end Verif.CmdSample
