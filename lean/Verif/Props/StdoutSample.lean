import Verif.Props.EndToEndCommandSample
import Verif.Props.CommandsSample
/-! # C89: what may be written to standard output exists, and is not an index without `--quiet` -/
namespace Verif
open Cmd Output Commands Pb Stdout

namespace Stdout

theorem works (level : Level) (n : Nat) (out : List Progress.Line) : ∀ k i, i + k = n →
    Progress.Reachable level [n] n ⟨i, 1, [⟨k, false⟩], false, .select, out⟩ → Progress.Reachable level [n] n ⟨n, 1, [⟨0, false⟩], false, .select, out⟩ := by
  intro k
  induction k with
  | zero => intro i hi h; simp only [Nat.add_zero] at hi; subst hi; exact h
  | succ k ih =>
    intro i hi h
    exact ih (i + 1) (by omega) (.step h (.work 0 k rfl))

/-- One way in which a task may be shown by default: `0/n` and `n/n`. -/
theorem parallel_default (name : Str) (n : Nat) :
    Parallel levelWarn name n ([.progress 0 n, .progress n n, .newline].flatMap (ofLine name)) := by
  have hq : ¬ levelWarn > levelWarn := by decide
  have h0 : Progress.Reachable levelWarn [n] n (Progress.start [n]) := .start
  have h1 := Progress.Reachable.step h0 (.first hq rfl)
  have h2 := Progress.Reachable.step h1 (.print 0 rfl)
  have h3 := works levelWarn n _ n 0 (by omega) h2
  have h4 := Progress.Reachable.step h3 (.workerDone 0 0 rfl)
  have h5 := Progress.Reachable.step h4 (.close hq rfl rfl)
  have h6 := Progress.Reachable.step h5 (.finish 0 rfl rfl)
  exact ⟨_, h6, rfl, rfl⟩

theorem reachable_steps {level : Level} {tasks : List Nat} {n : Nat} {s s' : Progress.State} (h : Progress.Steps level n s s')
    (hs : Progress.Reachable level tasks n s) : Progress.Reachable level tasks n s' := by
  induction h with
  | refl => exact hs
  | step h _ ih => exact ih (.step hs h)

/-- With every level the task can be shown in some way. -/
theorem parallel_exists (level : Level) (name : Str) (n : Nat) : ∃ l, Parallel level name n l := by
  obtain ⟨s, h1, h2⟩ := C60_can_return level [n] n (by simp) _ .start
  exact ⟨_, s, reachable_steps h1 .start, h2, rfl⟩

/-- The working goroutine can write everything before it counts. -/
theorem writes {level : Level} {name : Str} {n : Nat} {todo : List Shown} {s : Progress.State} {k : Nat} (hw : s.workers = [⟨k, false⟩]) :
    ∀ (rest shown : List Shown), Writing level name n todo s rest shown → Writing level name n todo s [] (shown ++ rest) := by
  intro rest
  induction rest with
  | nil => intro shown h; simpa using h
  | cons m rest ih =>
    intro shown h
    have := ih _ (.write h ⟨k, hw⟩)
    simpa using this

theorem writing_steps {level : Level} {name : Str} {n : Nat} {todo : List Shown} {s s' : Progress.State} (h : Progress.Steps level n s s') :
    ∀ (shown : List Shown), Writing level name n todo s [] shown → ∃ shown', Writing level name n todo s' [] shown' := by
  induction h with
  | refl => intro shown h; exact ⟨_, h⟩
  | @step s s' s'' hst _ ih =>
    intro shown h
    have hout : ∃ lines, s'.out = s.out ++ lines := by
      cases hst with
      | print => exact ⟨_, rfl⟩
      | finish => exact ⟨_, by simp only [List.append_assoc]; rfl⟩
      | _ => exact ⟨[], by simp⟩
    obtain ⟨lines, ho⟩ := hout
    exact ih _ (.step h hst (fun _ => rfl) ho)

/-- With every level the task can be shown in some way while the messages are written. -/
theorem writing_exists (level : Level) (name : Str) (n : Nat) (todo : List Shown) : ∃ l, ParallelWriting level name n todo l := by
  obtain ⟨s, h1, h2⟩ := C60_can_return level [n] n (by simp) _ .start
  obtain ⟨l, hl⟩ := writing_steps h1 _ (writes (k := n) rfl todo [] (.start (level := level) (name := name) (n := n)))
  exact ⟨l, s, hl, h2⟩

theorem writing_works (level : Level) (name : Str) (n : Nat) (todo shown : List Shown) (out : List Progress.Line) : ∀ k i, i + k = n →
    Writing level name n todo ⟨i, 1, [⟨k, false⟩], false, .select, out⟩ [] shown →
    Writing level name n todo ⟨n, 1, [⟨0, false⟩], false, .select, out⟩ [] shown := by
  intro k
  induction k with
  | zero => intro i hi h; simp only [Nat.add_zero] at hi; subst hi; exact h
  | succ k ih =>
    intro i hi h
    have := Writing.step h (.work 0 k rfl) (fun _ => rfl) (lines := []) (by simp)
    simp only [List.flatMap_nil, List.append_nil] at this
    exact ih (i + 1) (by omega) this

/-- One way by default: `0/n`, the messages, `n/n`. -/
theorem writing_default (name : Str) (n : Nat) (todo : List Shown) :
    ParallelWriting levelWarn name n todo ([Progress.Line.progress 0 n].flatMap (ofLine name) ++ todo ++
      [Progress.Line.progress n n, .newline].flatMap (ofLine name)) := by
  have hq : ¬ levelWarn > levelWarn := by decide
  have hd : ∀ k, ¬ (∀ w ∈ [Progress.Worker.mk k false], w.done = true) := by intro k h; exact absurd (h ⟨k, false⟩ (by simp)) (by simp)
  have h0 : Writing levelWarn name n todo (Progress.start [n]) todo [] := .start
  have h1 := Writing.step h0 (.first hq rfl) (fun h => absurd h (hd n)) (lines := []) (by simp)
  have h2 := Writing.step h1 (.print 0 rfl) (fun h => absurd h (hd n)) (lines := [.progress 0 n]) rfl
  have h3 := writes (k := n) rfl _ _ h2
  have h4 := writing_works levelWarn name n todo _ _ n 0 (by omega) h3
  have h5 := Writing.step h4 (.workerDone 0 0 rfl) (fun _ => rfl) (lines := []) (by simp)
  have h6 := Writing.step h5 (.close hq rfl rfl) (fun _ => rfl) (lines := []) (by simp)
  have h7 := Writing.step h6 (.finish 0 rfl rfl) (fun _ => rfl) (lines := [.progress n n, .newline]) rfl
  have h8 : ParallelWriting levelWarn name n todo _ := ⟨_, h7, rfl⟩
  simpa using h8

theorem whole_exists (disk : Disk) (level : Level) (skip : Bool) (loaded : Except Str (GoMap Index.Package × GoMap Index.Package)) (r : Index.Run) :
    ∃ l, Whole disk level skip loaded r l := by
  unfold Whole
  split
  · exact ⟨_, rfl⟩
  · split
    · exact ⟨_, rfl⟩
    · cases loaded with
      | error e => exact ⟨_, 0, rfl⟩
      | ok x =>
        obtain ⟨project, all⟩ := x
        obtain ⟨v, hv⟩ := parallel_exists level go!"Visiting Packages" project.length
        obtain ⟨i, hi⟩ := parallel_exists level go!"Indexing Implementations" 0
        obtain ⟨f, hf⟩ := writing_exists level go!"Visiting Project Files" project.length (chunks disk (contentAfter disk [_]) (List.takeWhile isDocument _))
        refine ⟨_, 0, v, if skip then [] else i, f, 0, hv, ?_, hf, rfl⟩
        split
        · rfl
        · exact hi

/-- For all flags, environments and projects there is something that may be written: no theorem about `Command` is empty. -/
theorem command_exists (S : Surroundings) (sh : SharedFlags) (W : World) (profile : Int) (output : Str)
    (loaded : IndexOpts → Except Str (GoMap Index.Package × GoMap Index.Package)) (indexing : IndexOpts → Index.Writer → Index.Run) :
    ∃ shown, Command S sh W profile output loaded indexing shown := by
  have hix : ∀ o : IndexOpts, ∀ level, ∃ l, Indexing W.disk level o.skipImplementations (loaded o) (indexing o (writer W.disk)) l := by
    intro o level
    obtain ⟨l, hl⟩ := whole_exists W.disk level o.skipImplementations (loaded o) (indexing o (writer W.disk))
    unfold Indexing
    split
    · exact ⟨l, l, hl, List.prefix_refl _⟩
    · exact ⟨l, hl⟩
  unfold Command
  split
  · exact ⟨_, rfl⟩
  · cases makeOptions S sh with
    | error e => exact ⟨_, 0, rfl⟩
    | crash => exact ⟨_, 0, rfl⟩
    | ok x =>
      obtain ⟨o, level⟩ := x
      obtain ⟨l, hl⟩ := hix o level
      simp only
      by_cases ho : output = go!"-"
      · exact ⟨_, 0, by rw [if_pos ho]; exact ⟨l, hl, rfl⟩⟩
      · cases hc : W.create with
        | some e => exact ⟨_, 0, by rw [if_neg ho]⟩
        | none => exact ⟨_, 0, by rw [if_neg ho]; exact ⟨l, hl, rfl⟩⟩

end Stdout
end Verif

namespace Verif.CmdSample
open Verif Spec Pb Cmd Stdout

/-- The sample project without `--quiet` and with the output `-`. -/
def loudFlags : SharedFlags := { flags with verbose := 0 }
theorem loud_options : makeOptions around loudFlags = .ok (options, levelWarn) := by decide +kernel

def messages : List Index.Message := (indexing options (writer good)).messages

def shownLoud : List Shown :=
  [.text go!"Resolving module name\n"] ++ (chunks good [] (messages.take 1) ++ [.text go!"Loading Packages\n"] ++
    [.progress 0 IndexSample.project.length, .progress IndexSample.project.length IndexSample.project.length, .newline].flatMap (ofLine go!"Visiting Packages") ++
    [.progress 0 4, .progress 4 4, .newline].flatMap (ofLine go!"Indexing Implementations") ++
    ([.progress 0 IndexSample.project.length].flatMap (ofLine go!"Visiting Project Files") ++
      chunks good (contentAfter good (messages.take 1)) ((messages.drop 1).takeWhile isDocument) ++
      [.progress IndexSample.project.length IndexSample.project.length, .newline].flatMap (ofLine go!"Visiting Project Files")) ++
    chunks good (contentAfter good (messages.take 1 ++ (messages.drop 1).takeWhile isDocument)) ((messages.drop 1).dropWhile isDocument))

theorem shown_loud : Command around loudFlags (world good) 0 go!"-" load indexing shownLoud := by
  unfold Command
  rw [if_neg (by decide)]
  refine ⟨0, ?_⟩
  rw [loud_options]
  simp only [if_true]
  refine ⟨_, ?_, rfl⟩
  unfold Indexing
  have hg : (indexing options (writer (world good).disk)).outcome = .ok := good_outcome
  rw [if_neg (by rw [hg]; simp)]
  have hm : (indexing options (writer (world good).disk)).messages = messages := rfl
  unfold Whole
  rw [hm]
  have hcons : ∃ m rest, messages = m :: rest := by
    cases h : messages with
    | nil =>
      exfalso
      have : messages.length > 0 := by decide +kernel
      rw [h] at this
      simp at this
    | cons m rest => exact ⟨m, rest, rfl⟩
  obtain ⟨m, rest, hcons⟩ := hcons
  rw [hcons]
  simp only
  have hw : writer (world good).disk [] m = none :=
    (C50_write_failure _ _ _ _ (load options)).2.2.2 good_outcome [] m rest (show messages = _ from hcons)
  rw [hw]
  refine ⟨0, _, [.progress 0 4, .progress 4 4, .newline].flatMap (ofLine go!"Indexing Implementations"), _, 4, parallel_default _ _, ?_, writing_default _ _ _, ?_⟩
  · rw [if_neg (by decide)]
    exact parallel_default _ _
  · rfl

/-- C89: what is on standard output begins with progress and is not an index … -/
example := C89_progress_in_output load (fun _ => go!"1s") indexing around loudFlags (world good) 0 go!"-" shownLoud rfl (by decide) _ rfl
  (by decide) shown_loud
/-- … and it cannot even be decoded, although the run succeeds. -/
theorem loud_undecodable : Pb.Spec.unmarshal (render (fun _ => go!"1s") shownLoud) = none ∧
    (Cmd.run (world good) 0 go!"-" (.ok options) indexing .absent).exit = .ok () := by decide +kernel
/-- The index is in it, between the progress. -/
example : indexPart shownLoud = written := by decide +kernel

/-- The parts of it, in order. -/
example := C89_order IndexSample.deps IndexSample.ord load around loudFlags (world good) 0 shownLoud options levelWarn (by decide) loud_options (by decide)
  good_outcome shown_loud

/-- With `--quiet` it is exactly the index. -/
def quietFlags : SharedFlags := { flags with quiet := true }
example : ∃ shown, Command around quietFlags (world good) 0 go!"-" load indexing shown ∧ render (fun _ => go!"1s") shown = written := by
  obtain ⟨shown, h⟩ := command_exists around quietFlags (world good) 0 go!"-" load indexing
  have ho : optionsOf (makeOptions around quietFlags) = .ok options := by decide +kernel
  have h1 := (C89_standard_output_partial IndexSample.deps IndexSample.ord load (fun _ => go!"1s") around quietFlags (world good) 0 go!"-" .absent
    shown rfl h).2.1
  rw [ho] at h1
  have h2 : (Cmd.run (world good) 0 go!"-" (.ok options) indexing .absent).exit ≠ .crash ∧
    (Cmd.run (world good) 0 go!"-" (.ok options) indexing .absent).piped = written := by decide +kernel
  exact ⟨shown, h, (h1 h2.1).trans h2.2⟩

end Verif.CmdSample

namespace Verif.CommandsSample
open Verif Spec Cmd Git Commands CmdSample Stdout

/-- C76: all that `packages` prints by default for the loader's sample project. -/
example : ∃ l : Loader.Loaded, ∃ current deps t t',
    Spec.linesOf (Spec.textOf (fun _ => go!"1s") (listing around loudFlags 0 0 fun x => packagesRun x (packagesOf fun _ => .ok (l.project, l.st.all)))) =
      Spec.taskLines levelWarn go!"Resolving module name" t ++ Spec.taskLines levelWarn go!"Loading Packages" t' ++
        [go!"Current packages"] ++ current ++ [go!"Dependency packages"] ++ deps ∧ go!"ex.com/m/p" ∈ current ∧ go!"fmt" ∈ deps := by
  obtain ⟨l, h1, h2, h3, h4, _⟩ := LoaderSample.sample_load
  have hk : ∀ k ∈ (((Loader.loadPackages LoaderSample.env LoaderSample.opts (some (LoaderSample.graph, LoaderSample.pkgs)) LoaderSample.order
      20).getD none).getD ⟨Loader.initial LoaderSample.pkgs, []⟩).st.all.keys, '\n' ∉ k := by decide +kernel
  rw [h1] at hk
  obtain ⟨c, d, t, t', p1, _, _, _, p2, p3⟩ := C76_packages_output LoaderSample.order_valid h1 around loudFlags options levelWarn loud_options
    (fun _ => .ok (l.project, l.st.all)) rfl (fun k v hv => hk k (GoMap.mem_keys.2 ⟨v, hv⟩)) (fun _ => go!"1s") (fun _ => by decide) 0 0
  exact ⟨l, c, d, t, t', p1, (p2 _).2 ⟨_, h3⟩, (p3 _).2 ⟨_, h4⟩⟩

example : Spec.taskLines levelWarn go!"Loading Packages" [] = [go!"Loading Packages"] ∧ Spec.taskLines levelError go!"Loading Packages" [] = [] ∧
    Spec.taskLines levelInfo go!"Loading Packages" go!"1s" = [go!"Loading Packages", go!"Finished in 1s.", []] := by decide +kernel

example := C76_quiet_output (fun _ => go!"1s") around quietFlags rfl (fun x => missingRun x (missingOf values values load)) 0 0
example := C76_missing_documents options [go!"a.go", go!"b.go"] (by decide)

end Verif.CommandsSample

namespace Verif.ProgramSample
open Verif Spec Index IndexSample Program Loader.Spec

/-- C82_causes: the go command fails; a go.mod file is broken. -/
example : ∃ r, indexing deps (fun _ => .error go!"no go") env order 1 ord options (fun _ _ => none) = some r ∧ r.outcome = .failed go!"no go" :=
  ⟨_, rfl, by decide +kernel⟩

/-- The project's module is replaced by a local directory without a module directive in its go.mod file. -/
def infoLocal : Nat → Loader.PkgSt := fun i => if i = 0 then ⟨go!"m/p", some ⟨⟨go!"./x", [], go!"/w/x", go!"/w/x/go.mod"⟩, none⟩⟩ else info i
example : ∃ r, indexing deps (fun _ => .ok { delivered with info := infoLocal }) { env with readMod := fun _ => .broken } order 20 ord options
    (fun _ _ => none) = some r ∧ r.outcome = .failed panicText ∧ r.messages.length = 1 := by
  have h : (indexing deps (fun _ => .ok { delivered with info := infoLocal }) { env with readMod := fun _ => .broken } order 20 ord options
    (fun _ _ => none)).map (fun r => (r.outcome, r.messages.length)) = some (.failed panicText, 1) := by decide +kernel
  simp only [Option.map_eq_some_iff, Prod.mk.injEq] at h
  obtain ⟨r, h1, h2, h3⟩ := h
  exact ⟨r, h1, h2, h3⟩

end Verif.ProgramSample
