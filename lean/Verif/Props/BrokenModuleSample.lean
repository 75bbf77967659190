import Verif.Props.BrokenModule
import Verif.Props.ProgramTypesSample
/-! # A program with and without a broken go.mod file meets the hypotheses of C82_succeeds_iff and C85_same_outcome -/
namespace Verif.ProgramSample
open Verif Spec Index IndexSample Program Loader.Spec

/-- As `info`, but the module of the project is replaced by a local directory. -/
def infoReplaced : Nat → Loader.PkgSt := fun i =>
  { info i with module := (info i).module.map fun m => { m with replace := some ⟨go!"./x", [], go!"/w/x", go!"/w/x/go.mod"⟩ } }
def replaced : Delivered := { delivered with info := infoReplaced }
/-- The go.mod file in this directory has no module directive. -/
def envBroken : Loader.Env := { env with readMod := fun _ => .broken }
def answerReplaced : Query → Except Str Delivered := fun q => if q = ⟨go!"/w/m", true, [go!"./..."]⟩ then .ok replaced else .error go!"no packages"

theorem replaced_as (i : Nat) : asDelivered replaced i = asDelivered delivered i := by
  have h : moduleIdent (infoReplaced i).module = moduleIdent (info i).module := by
    unfold infoReplaced
    cases (info i).module <;> rfl
  rw [asDelivered_eq, asDelivered_eq]
  show packageOf delivered infoReplaced i = packageOf delivered info i
  unfold packageOf
  rw [h]
  rfl

theorem go_replaced (order : Nat → Nat → List Nat) (ho : ValidOrder delivered.graph order) : GoProgram replaced answerReplaced order options where
  answer := by
    have : (⟨options.moduleRoot, !options.skipTests, if options.packagePatterns = [] then [go!"./..."] else options.packagePatterns⟩ : Query) =
        ⟨go!"/w/m", true, [go!"./..."]⟩ := by decide +kernel
    rw [this]
    exact if_pos rfl
  order := ho
  paths := go_program.paths
  variants := ⟨go_program.variants.largest, go_program.variants.files_nested, go_program.variants.imports_nested, go_program.variants.builtin⟩

theorem typed_replaced : TypedProgram replaced deps objs where
  packages := fun i hi => by rw [replaced_as]; exact typed.packages i hi
  types := fun i hi => by rw [replaced_as]; exact typed.types i hi
  files_once := typed.files_once
  files_apart := typed.files_apart
  coherent := typed.coherent
  wellFormed := typed.wellFormed

theorem same_modules : SameModules delivered := fun i j hi hj h => by
  rcases same_path hi hj h with rfl | ⟨rfl | rfl, rfl | rfl⟩ <;> rfl

theorem same_replaced : SameModules replaced := fun i j hi hj h => by
  rcases same_path hi hj h with rfl | ⟨rfl | rfl, rfl | rfl⟩ <;> rfl

theorem broken : BrokenProgram replaced envBroken options :=
  ⟨0, reach0, fun h => absurd h (by decide), rfl, rfl, _, rfl, by decide, ⟨by decide, by decide⟩, rfl⟩

theorem not_broken : ¬ BrokenProgram delivered env options := by
  rintro ⟨_, _, _, _, _, _, _, _, _, h⟩
  simp [env] at h

/-- C82: the run on the replaced module fails, with the metadata written. -/
example : ∃ r, indexing deps answerReplaced envBroken order 20 ord options writer = some r ∧ r.outcome = .failed panicText ∧
    ∃ m, r.messages = [.metadata m] := by
  obtain ⟨r, hr⟩ : ∃ r, indexing deps answerReplaced envBroken order 20 ord options writer = some r := Option.isSome_iff_exists.1 (by decide +kernel)
  obtain ⟨h1, h2⟩ := (C82_succeeds_iff deps answerReplaced envBroken order 20 ord options writer replaced objs (go_replaced _ fun _ _ => .refl _)
    typed_replaced signed same_replaced ord_ok (fun _ _ => rfl) r hr).2 broken
  exact ⟨r, hr, h2, h1⟩

/-- C85: the runs on the delivered program, with either order of iteration. -/
example : ∃ r r', run = some r ∧ run' = some r' ∧ r.outcome = .ok ∧ r'.outcome = .ok ∧ SameIndex r.messages r'.messages := by
  obtain ⟨r, hr, _⟩ := run_some
  obtain ⟨r', hr'⟩ : ∃ r', run' = some r' := Option.isSome_iff_exists.1 (by decide +kernel)
  obtain ⟨h1, h2, _⟩ := C85_same_outcome deps answer env order order' 20 20 ord ord' options writer writer delivered objs go_program go_program'
    alike same_modules typed signed named ord_ok ord'_ok (.inr absolute) dirs (fun _ _ => rfl) (fun _ _ => rfl) r r' hr hr'
  have hok := (C82_succeeds_iff deps answer env order 20 ord options writer delivered objs go_program typed signed same_modules ord_ok
    (fun _ _ => rfl) r hr).1.2 not_broken
  exact ⟨r, r', hr, hr', hok, h1 ▸ hok, h2 hok⟩

end Verif.ProgramSample
