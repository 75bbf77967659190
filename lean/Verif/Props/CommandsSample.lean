import Verif.Props.Commands
import Verif.Props.CmdSample
import Verif.Props.LoaderSample
/-! # C76–C78 on samples -/
namespace Verif.CommandsSample
open Verif Spec Cmd Git Commands CmdSample

def values (m : GoMap Index.Package) : List Index.Package := m.map (·.2)

example := C76_missing_text values values (fun _ => .refl _) (fun _ => .refl _) load options _ _ rfl
example : missingRun (.ok options) (missingOf values values load) = ⟨go!"No missing documents\n", .ok ()⟩ := by decide +kernel
/-- Reading the two lists back from what is printed. -/
example : Spec.linesOf (packagesRun (.ok options) (packagesOf load)).printed =
    [go!"Current packages"] ++ sortStrs IndexSample.project.keys ++ [go!"Dependency packages"] ++ sortStrs IndexSample.all.keys := by decide +kernel
example : (packagesRun (.ok options) (packagesOf load)).exit = .ok () := by decide +kernel
/-- The listing of the loader's sample project. -/
example (o : IndexOpts) : ∃ l : Loader.Loaded, ∃ current deps,
    Spec.linesOf (packagesRun (.ok o) (packagesOf fun _ => .ok (l.project, l.st.all))).printed =
        [go!"Current packages"] ++ current ++ [go!"Dependency packages"] ++ deps ∧ go!"ex.com/m/p" ∈ current ∧ go!"fmt" ∈ deps := by
  let l := ((Loader.loadPackages LoaderSample.env LoaderSample.opts (some (LoaderSample.graph, LoaderSample.pkgs)) LoaderSample.order 20).getD none).getD
    ⟨Loader.initial LoaderSample.pkgs, []⟩
  obtain ⟨l', h1, h2, h3, h4, _⟩ := LoaderSample.sample_load
  have e : l = l' := by simp only [l, h1, Option.getD_some]
  have hk : ∀ k ∈ l.st.all.keys, '\n' ∉ k := by decide +kernel
  rw [e] at hk
  obtain ⟨c, d, p1, _, _, _, p2, p3⟩ := C76_packages_listing LoaderSample.order_valid h1 o (fun _ => .ok (l'.project, l'.st.all)) rfl
    (fun k v hv => hk k (GoMap.mem_keys.2 ⟨v, hv⟩))
  exact ⟨l', c, d, p1, (p2 _).2 ⟨_, h3⟩, (p3 _).2 ⟨_, h4⟩⟩
/-- A load that fails. -/
example := C76_failure_prints_nothing options go!"no packages" (fun _ => .error go!"no packages") rfl values values

/-- Every tool answers; every tool fails; a fresh repository with a short id; `go list` prints null. -/
def decode (s : Str) : GoListAnswer := if s = go!"null" then .null else if s = go!"{" then .error else .module go!"1.22"
def answers : Tools := ⟨⟨go!"https://h/p\n", none⟩, ⟨go!"v1.0.0\n", none⟩, ⟨go!"0123456789abcdef\n", none⟩, ⟨go!"{}\n", none⟩⟩
def failing : Tools := ⟨⟨go!"e", some go!"1"⟩, ⟨go!"e", some go!"1"⟩, ⟨go!"e", some go!"1"⟩, ⟨go!"e", some go!"1"⟩⟩
theorem all_answer : defaults UrlSample.parse decode answers = .ok ⟨go!"h/p", go!"v1.0.0", go!"go1.22"⟩ := by decide +kernel
example := C77_defaults UrlSample.parse decode answers _ all_answer
example : defaults UrlSample.parse decode failing = .ok ⟨[], [], []⟩ := by decide +kernel
example : defaults UrlSample.parse decode { answers with tags := ⟨[], none⟩, head := ⟨go!"HEAD", none⟩ } = .crash :=
  (C77_defaults_crash_iff _ _ _).2.2 (.inl ⟨rfl, by decide +kernel, rfl, by decide +kernel⟩)
example : defaults UrlSample.parse decode { answers with goList := ⟨go!"null\n", none⟩ } = .crash :=
  (C77_defaults_crash_iff _ _ _).2.2 (.inr ⟨rfl, by decide +kernel⟩)

example : searchForGoMod (fun _ => .found) 1 go!"/a/b" (toplevel ⟨go!"fatal: not a git repository", some go!"exit status 128"⟩) = some go!"." :=
  C65_outside_repository _ _ _ _ rfl 0

example : mainEnding (.ok ()) goodRun.exit = ⟨0, []⟩ := by decide +kernel
example : mainEnding (.ok ()) fullRun.exit = ⟨1, go!"error: failed to write to scip index file: no space left on device\n"⟩ := by decide +kernel
example := (C78_status_tells_completeness IndexSample.deps IndexSample.ord load (world good) 0 go!"index.scip" (.ok options) .absent rfl rfl typed
  IndexSample.ord_ok).1 (by decide +kernel)

end Verif.CommandsSample
